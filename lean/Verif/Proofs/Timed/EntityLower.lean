import Verif.Proofs.Timed.Entity
import Verif.Proofs.Timed.Lower
/-
A family of multiparts for which the search for the delimiters takes quadratic time.
-/
namespace EmailParser.Timed

variable {α β γ : Type} {c : Cfg}

/-- `"\r\n--"`, `n` times. -/
def almost : Nat → Bytes
  | 0 => []
  | n + 1 => 13 :: 10 :: 45 :: 45 :: almost n

theorem almost_length : ∀ n, (almost n).length = 4 * n
  | 0 => rfl
  | n + 1 => by
    have := almost_length n
    simp only [almost, List.length_cons]
    omega

theorem almost_drop : ∀ k n, (almost (k + n)).drop (4 * k) = almost n
  | 0, n => by simp
  | k + 1, n => by
    rw [show k + 1 + n = (k + n) + 1 by omega, show 4 * (k + 1) = 4 * k + 4 by omega]
    exact almost_drop k n

theorem almost_no : ∀ n, (120 : UInt8) ∉ almost n
  | 0, h => by cases h
  | n + 1, h => by
    have := almost_no n
    simp [almost, this] at h

theorem findIndex_four {cond : Nat → Timed Bool} {A : Nat} (ho : ∀ k, (cond k).out = .ok false) : ∀ k idx r,
    (∀ j, j < k → A ≤ (cond (idx + 4 * j)).cost) → k * A ≤ (findIndex cond idx (4 * k + r)).cost
  | 0, _, _, _ => by rw [Nat.zero_mul]; exact Nat.zero_le _
  | k + 1, idx, r, h => by
    have hs : ∀ idx n, (findIndex cond idx (n + 1)).cost = 1 + ((cond idx).cost + (findIndex cond (idx + 1) n).cost) := by
      intro idx n
      show (tick 1 >>= _).cost = _
      rw [tick_cost, bind_ok _ (show cond idx = ⟨.ok false, (cond idx).cost⟩ by
        have := ho idx
        cases hx : cond idx
        rw [hx] at this
        cases this
        rfl)]
      rfl
    rw [show 4 * (k + 1) + r = (4 * k + r) + 1 + 1 + 1 + 1 by omega, hs, hs, hs, hs]
    have h1 := h 0 (by omega)
    have h2 := findIndex_four ho k (idx + 1 + 1 + 1 + 1) r (fun j hj => by
      have := h (j + 1) (by omega)
      rw [show idx + 4 * (j + 1) = idx + 1 + 1 + 1 + 1 + 4 * j by omega] at this
      exact this)
    rw [Nat.succ_mul]
    simp only [Nat.mul_zero, Nat.add_zero] at h1
    omega

theorem getRange_not {i e : Bytes} {a b : Nat} {x : UInt8} (he : x ∈ e) (hi : x ∉ i) : (getRange i a b == some e) = false := by
  rw [beq_eq_false_iff_ne]
  intro h
  unfold getRange at h
  split at h
  · cases h
    exact hi (List.mem_of_mem_drop (List.mem_of_mem_take he))
  · cases h

/-- A comparison in the family. -/
theorem almost_cond (m k d : Nat) (y : Bytes) (h : k ≤ m) :
    (almost m ++ [120]).length ≤ (both (sameRange (almost (2 * m + 2)) (4 * k) (4 * k + 4) (b! "\r\n--")) <|
      both (sameRange (almost (2 * m + 2)) (4 * k + 4) (4 * k + 4 + (almost m ++ [120]).length) (almost m ++ [120]))
        (sameRange (almost (2 * m + 2)) (4 * k + 4 + (almost m ++ [120]).length) d y)).cost := by
  have hl := almost_length (2 * m + 2)
  have hb : (almost m ++ [120]).length = 4 * m + 1 := by rw [List.length_append, almost_length]; rfl
  have h1 : (sameRange (almost (2 * m + 2)) (4 * k) (4 * k + 4) (b! "\r\n--")).out = .ok true := by
    rw [sameRange_out]
    unfold getRange
    rw [if_pos ⟨by omega, by omega⟩]
    have := almost_drop k (2 * m + 1 - k + 1)
    rw [show k + (2 * m + 1 - k + 1) = 2 * m + 2 by omega] at this
    rw [this, show 4 * k + 4 - 4 * k = 4 by omega]
    rfl
  refine Nat.le_trans ?_ (le_bind_ok _ h1)
  show _ ≤ (both _ _).cost
  refine Nat.le_trans ?_ (le_bind _ _)
  unfold sameRange
  rw [tick_cost]
  unfold getRange
  rw [if_pos ⟨by omega, by omega⟩]
  show _ ≤ 1 + ((almost m ++ [120]).length + 0)
  omega

theorem atBoundary_almost (m : Nat) (b : Bytes) : (atBoundary (almost (m + 1)) b).out = .ok false := by
  unfold atBoundary
  dsimp only
  split
  · rw [both_out (sameRange_out ..) (both_out (sameRange_out ..) (sameRange_out ..))]
    rfl
  · rfl

theorem search_almost (m : Nat) : (m + 1) * (4 * m + 1) ≤
    (beforeBoundary (almost m ++ [120]) (almost (2 * m + 2))).cost := by
  have hb : (almost m ++ [120]).length = 4 * m + 1 := by rw [List.length_append, almost_length]; rfl
  have hl := almost_length (2 * m + 2)
  refine Nat.le_trans ?_ (le_bind _ _)
  refine Nat.le_trans ?_ (le_bind_ok _ (atBoundary_almost (2 * m + 1) _))
  refine Nat.le_trans ?_ (le_bind _ _)
  rw [hl, show 4 * (2 * m + 2) = 4 * (m + 1) + (4 * m + 4) by omega]
  refine findIndex_four (fun k => ?_) _ _ _ fun j hj => ?_
  · rw [both_out (sameRange_out ..) (both_out (sameRange_out ..) (sameRange_out ..)),
      getRange_not (x := 120) (e := almost m ++ [120]) (by simp) (almost_no _)]
    simp
  · have := almost_cond m j (0 + 4 * j + (2 + 2 + (almost m ++ [120]).length + 2)) (b! "\r\n") (by omega)
    rw [Nat.zero_add] at *
    omega

theorem le_on {x : Timed α} (f : Outcome α → Timed β) : x.cost ≤ (x.on f).cost := Nat.le_add_right ..

theorem entity_almost (raw : RawEntity) (m : Nat) (ht : raw.mimeType = .multipart)
    (hb : raw.parameters (b! "boundary") = some (almost m ++ [120])) (hv : raw.value = almost (2 * m + 2)) :
    (m + 1) * (4 * m + 1) ≤ (entity c raw).cost := by
  refine Nat.le_trans (search_almost m) ?_
  unfold entity
  rw [if_pos ht, hv]
  refine Nat.le_trans ?_ (le_bind _ _)
  unfold parseMultipart
  rw [hb]
  refine Nat.le_trans ?_ (le_bind _ _)
  refine Nat.le_trans ?_ (le_bind _ _)
  unfold many manyLoop
  rw [tick_cost]
  exact Nat.le_trans (le_on _) (Nat.le_add_left _ _)

end EmailParser.Timed
