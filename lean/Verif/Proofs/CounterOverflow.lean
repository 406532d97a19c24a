import Verif.Proofs.Params
/-
When the counter of continuation segments overflows.
-/
namespace EmailParser

variable {c : Cfg}

theorem segmentsLoop_panic (ho : c.overflowChecks = true) {charset : Option Bytes} :
    ∀ (fuel idx : Nat) (values : Segments), idx ≤ 255 → 256 < fuel + idx →
    (∀ k, idx ≤ k → k < 256 → ∃ v, values k = some (false, v)) →
    segmentsLoop c charset fuel values idx = .abort .panic
  | 0, idx, values, h1, hf, _ => by omega
  | fuel + 1, idx, values, h1, hf, hv => by
    obtain ⟨v, h⟩ := hv idx (by omega) (by omega)
    unfold segmentsLoop
    rw [h]
    have hp : segmentPiece c charset false v = .ok v := rfl
    simp only [hp, ok_bind]
    unfold incrementIndex
    by_cases hi : idx + 1 < 256
    · rw [if_pos hi]
      have ih := segmentsLoop_panic ho (charset := charset) fuel (idx + 1) (values.erase idx)
        (by omega) (by omega) fun k hk hk' => by
          obtain ⟨v', h'⟩ := hv k (by omega) hk'
          exact ⟨v', by simp [Segments.erase, show k ≠ idx by omega, h']⟩
      simp only [ok_bind, ih, abort_bind]
    · rw [if_neg hi, if_pos ho]
      rfl

theorem segmentsOf_plain {ps : List RawParam} (hp : ∀ p ∈ ps, p.encoded = false) {name : Bytes}
    {k : Nat} {s : Bool × Bytes} (h : segmentsOf ps name k = some s) : s.1 = false := by
  obtain ⟨p, hm, rfl⟩ := Option.map_eq_some_iff.mp h
  exact hp p (segment_mem hm).1

theorem segmentsLoop_plain {charset : Option Bytes} :
    ∀ (fuel idx : Nat) (values : Segments), (∀ k s, values k = some s → s.1 = false) →
    ∀ e, segmentsLoop c charset fuel values idx ≠ .err e
  | 0, _, _, _, e => by simp [segmentsLoop]
  | fuel + 1, idx, values, hv, e => by
    unfold segmentsLoop
    cases h : values idx with
    | none => simp
    | some s =>
      obtain ⟨b, v⟩ := s
      obtain rfl : b = false := hv idx _ h
      have hp : segmentPiece c charset false v = .ok v := rfl
      simp only [hp, ok_bind]
      intro he
      rcases bind_eq_err.mp he with he | ⟨n, -, he⟩
      · unfold incrementIndex at he
        split at he
        · cases he
        · split at he <;> cases he
      · rcases bind_eq_err.mp he with he | ⟨r, -, he⟩
        · refine segmentsLoop_plain fuel n (values.erase idx) (fun k s hs => ?_) e he
          unfold Segments.erase at hs
          split at hs
          · cases hs
          · exact hv k s hs
        · cases he

theorem collectOne_plain {ps : List RawParam} (hp : ∀ p ∈ ps, p.encoded = false)
    {parameters : Params} {entry : Bytes × Segments} (hs : entry.2 = segmentsOf ps entry.1) (e : Error) :
    collectOne c parameters entry ≠ .err e := by
  unfold collectOne
  rw [hs]
  cases h : segmentsOf ps entry.1 0 with
  | none => simp
  | some s =>
    obtain ⟨b, v⟩ := s
    obtain rfl : b = false := segmentsOf_plain hp h
    have hf : firstSegment c false v = .ok (v, none) := rfl
    simp only [hf, ok_bind]
    intro he
    rcases bind_eq_err.mp he with he | ⟨r, -, he⟩
    · refine segmentsLoop_plain _ _ _ (fun k s hk => ?_) e he
      unfold Segments.erase at hk
      split at hk
      · cases hk
      · exact segmentsOf_plain hp hk
    · cases he

theorem collectOne_panic (ho : c.overflowChecks = true) {ps : List RawParam}
    (hp : ∀ p ∈ ps, p.encoded = false) {parameters : Params} {entry : Bytes × Segments}
    (hs : entry.2 = segmentsOf ps entry.1) (ha : AllSegments ps entry.1) :
    collectOne c parameters entry = .abort .panic := by
  unfold collectOne
  rw [hs]
  have hall : ∀ k, k < 256 → ∃ v, segmentsOf ps entry.1 k = some (false, v) := by
    intro k hk
    obtain ⟨p, hm⟩ := Option.isSome_iff_exists.mp (ha k hk)
    refine ⟨p.value, ?_⟩
    unfold segmentsOf
    rw [hm]
    simp [hp p (segment_mem hm).1]
  obtain ⟨v, h⟩ := hall 0 (by omega)
  rw [h]
  have hf : firstSegment c false v = .ok (v, none) := rfl
  simp only [hf, ok_bind]
  rw [segmentsLoop_panic ho 257 1 _ (by omega) (by omega) fun k hk hk' => ?_]
  · rfl
  · obtain ⟨v', h'⟩ := hall k hk'
    exact ⟨v', by simp [Segments.erase, show k ≠ 0 by omega, h']⟩

theorem collectAll_panic (ho : c.overflowChecks = true) {ps : List RawParam}
    (hsm : IndicesSmall ps) (hp : ∀ p ∈ ps, p.encoded = false) :
    ∀ {l : List (Bytes × Segments)} {parameters : Params}, (l.map (·.1)).Nodup →
    (∀ e ∈ l, e.2 = segmentsOf ps e.1) →
    (∀ e ∈ l, parameters e.1 = (Spec.plainParam ps e.1).map (·.value)) →
    (∃ e ∈ l, AllSegments ps e.1) →
    collectAll c parameters l = .abort .panic
  | [], _, _, _, _, h => by simp at h
  | e :: l, parameters, hnd, hs, hpl, h => by
    simp only [List.map_cons, List.nodup_cons] at hnd
    unfold collectAll
    by_cases ha : AllSegments ps e.1
    · rw [collectOne_panic ho hp (hs e (by simp)) ha]; rfl
    · obtain ⟨e', he', ha'⟩ := h
      have he'' : e' ∈ l := by
        rcases List.mem_cons.mp he' with rfl | h
        · exact absurd ha' ha
        · exact h
      cases ho' : collectOne c parameters e with
      | err x => exact absurd ho' (collectOne_plain hp (hs e (by simp)) x)
      | ok q =>
        simp only [ok_bind]
        have hq := ((collectOne_spec (c := c) hsm (hs e (by simp)) (hpl e (by simp))).1 q ho').2
        refine collectAll_panic ho hsm hp hnd.2 (fun e he => hs e (by simp [he])) (fun x hx => ?_)
          ⟨e', he'', ha'⟩
        rw [hq x.1 fun h => hnd.1 (h ▸ List.mem_map.mpr ⟨x, hx, rfl⟩)]
        exact hpl x (by simp [hx])
      | abort k =>
        have h3 := (collectOne_spec (c := c) hsm (hs e (by simp)) (hpl e (by simp))).2.2 k ho'
        exact absurd h3.2.2 ha

theorem collectParameters_panic (ho : c.overflowChecks = true) {ps : List RawParam}
    (hsm : IndicesSmall ps) (hp : ∀ p ∈ ps, p.encoded = false) {name : Bytes}
    (ha : AllSegments ps name) : collectParameters c ps = .abort .panic := by
  unfold collectParameters
  have hP := partition_empty ps
  generalize partitionParameters ps (Params.empty, []) = pc at hP ⊢
  obtain ⟨parameters, complex⟩ := pc
  simp only at hP ⊢
  have hperm := c.mapOrder_perm complex
  have hn : name ∈ complex.map (·.1) := by
    apply Classical.byContradiction
    intro hn
    have := ha 0 (by omega)
    rw [hP.missing name hn 0] at this
    cases this
  obtain ⟨e, he, rfl⟩ := List.mem_map.mp hn
  exact collectAll_panic ho hsm hp ((hperm.map (·.1)).nodup_iff.mpr hP.nodup)
    (fun e he => hP.segs e (hperm.mem_iff.mp he)) (fun e _ => hP.plain e.1)
    ⟨e, hperm.mem_iff.mpr he, ha⟩

end EmailParser
