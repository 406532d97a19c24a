import Verif.Proofs.Timed.Entity
/-
The search for the delimiters makes a step for each byte of the parts.
-/
namespace EmailParser
namespace Timed

theorem findIndex_passes {cond : Nat → Timed Bool} : ∀ n idx, Within (findIndex cond idx n) 0
    (fun r k => ∀ j, r = some j → j ≤ idx + k) fun _ => True
  | 0, _ => within_ok.mpr nofun
  | n + 1, idx => by
    unfold findIndex
    refine within_tick.mpr (within_bind.mpr ?_)
    have hc : Within (cond idx) 0 (fun _ _ => True) fun _ => True := by
      unfold Within
      split <;> trivial
    refine hc.use (fun found k _ _ => ?_) fun _ _ _ => trivial
    split
    · refine within_ok.mpr fun j hj => ?_
      cases hj
      omega
    · refine (findIndex_passes n (idx + 1)).use (fun r m _ h j hj => ?_) fun _ _ _ => trivial
      have := h j hj
      omega

theorem beforeBoundary_passes (b i : Bytes) : Within (beforeBoundary b i) 0 (fun a k => a.2.length ≤ k)
    fun _ => True := by
  have hidx : Within (beforeBoundaryIdx i b) 0 (fun a k => a.1 ≤ k) fun _ => True := by
    unfold beforeBoundaryIdx
    have hc : Within (atBoundary i b) 0 (fun _ _ => True) fun _ => True := by
      unfold Within
      split <;> trivial
    refine Within.bind hc (fun start k _ _ => ?_) fun _ _ _ => trivial
    split
    · exact within_ok.mpr (Nat.zero_le _)
    · refine Within.bind (findIndex_passes i.length 0) (fun r m _ h => ?_) fun _ _ _ => trivial
      cases r with
      | none => exact within_err.mpr trivial
      | some j =>
        have := h j rfl
        exact within_ok.mpr (by dsimp only; omega)
  unfold beforeBoundary
  refine Within.bind hidx ?_ fun _ _ _ => trivial
  rintro ⟨before, len⟩ k _ hk
  refine within_bind.mpr (within_lift (fun rest hr => within_bind.mpr (within_lift (fun part hp => within_ok.mpr ?_) trivial)) trivial)
  unfold getUncheckedTo at hp
  split at hp
  · cases hp
    dsimp only at hk ⊢
    rw [List.length_take]
    omega
  · cases hp

theorem beforeClosingBoundary_passes (b i : Bytes) : Within (beforeClosingBoundary b i) 0 (fun a k => a.2.length ≤ k)
    fun _ => True := by
  have hidx : Within (beforeClosingBoundaryIdx i b) 0 (fun a k => a.1 ≤ k) fun _ => True := by
    unfold beforeClosingBoundaryIdx
    refine Within.bind (findIndex_passes i.length 0) (fun r m _ h => ?_) fun _ _ _ => trivial
    cases r with
    | none => exact within_err.mpr trivial
    | some j =>
      have := h j rfl
      exact within_ok.mpr (by dsimp only; omega)
  unfold beforeClosingBoundary
  refine Within.bind hidx ?_ fun _ _ _ => trivial
  rintro ⟨before, len⟩ k _ hk
  refine within_bind.mpr (within_lift (fun rest hr => within_bind.mpr (within_lift (fun part hp => within_ok.mpr ?_) trivial)) trivial)
  unfold getUncheckedTo at hp
  split at hp
  · cases hp
    dsimp only at hk ⊢
    rw [List.length_take]
    omega
  · cases hp

theorem splitLoop_passes (b : Bytes) : ∀ n i, Within (manyLoop (beforeBoundary b) n i) 0
    (fun a k => (a.2.map List.length).sum ≤ k) fun _ => True
  | 0, _ => within_abort.mpr trivial
  | n + 1, i => by
    unfold manyLoop
    refine within_tick.mpr (Within.on (beforeBoundary_passes b i) ?_ ?_ ?_)
    · rintro ⟨r, p⟩ k _ hk
      refine Within.bind (splitLoop_passes b n r) ?_ fun _ _ _ => trivial
      rintro ⟨s, ps⟩ m _ hm
      dsimp only at hk hm
      exact within_ok.mpr (by simp only [List.map_cons, List.sum_cons]; omega)
    · intro e k _ _
      exact within_ok.mpr (Nat.zero_le _)
    · intro e k _ _
      exact within_abort.mpr trivial

theorem multipartParts_passes (i b : Bytes) : Within (multipartParts i b) 0
    (fun ps k => (ps.map List.length).sum ≤ k) fun _ => True := by
  unfold multipartParts
  refine Within.bind (splitLoop_passes b (i.length + 1) i) ?_ fun _ _ _ => trivial
  rintro ⟨r, ps⟩ k _ hk
  refine Within.bind (beforeClosingBoundary_passes b r) ?_ fun _ _ _ => trivial
  rintro ⟨e, p⟩ m _ hm
  dsimp only at hk hm
  refine within_tick.mpr ?_
  have h : ((ps ++ [p]).map List.length).sum = (ps.map List.length).sum + p.length := by simp
  generalize ps ++ [p] = l at h ⊢
  cases l with
  | nil => exact within_abort.mpr trivial
  | cons q l =>
    simp only [List.map_cons, List.sum_cons] at h
    exact within_ok.mpr (by omega)

/-- Finding the parts of an entity takes at least one step for each of their bytes. -/
theorem entity_passes {c : Cfg} {raw : RawEntity} {b : Bytes} {ps : List Bytes} (ht : raw.mimeType = .multipart)
    (hb : raw.parameters (b! "boundary") = some b) (h : EmailParser.multipartParts raw.value b = .ok ps) :
    (ps.map List.length).sum ≤ (entity c raw).cost := by
  unfold entity parseMultipart
  rw [if_pos ht, hb]
  refine Nat.le_trans ?_ (Nat.le_trans (Nat.le_add_right ..) (Nat.le_add_right ..))
  have hp := multipartParts_passes raw.value b
  unfold Within at hp
  rw [multipartParts_out, h] at hp
  simpa using hp

end Timed
end EmailParser
