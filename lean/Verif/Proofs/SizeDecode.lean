import Verif.Proofs.Size
import Verif.Proofs.QuotedPrintable
import Verif.Proofs.Base64
import Verif.Proofs.Sound.Mime
/-
How long decoded texts are.
-/
namespace EmailParser
open Spec

theorem qpDecode_length (s : Bytes) : (qpDecode s).length ≤ 3 * s.length := by
  fun_induction qpDecode s <;> simp only [List.length_cons, List.length_append, List.length_nil, replacement] at * <;> omega

theorem qDecode_length {s : Bytes} (h : ∀ b ∈ s, 32 ≤ b ∧ b ≤ 126) : (qDecode s).length ≤ s.length := by
  fun_induction qDecode s
  all_goals simp only [List.mem_cons, forall_eq_or_imp, List.length_cons, List.length_append, List.length_nil, replacement] at *
  case case1 => omega
  case case2 ih => have := ih h.2; omega
  case case3 ih => have := ih h.2.2.2; omega
  case case4 ih => have := ih h.2.2.2; omega
  case case5 ih => have := ih h.2.2.2; omega
  case case6 ih => have := ih h.2; omega
  case case7 ih => have := ih h.2; omega
  case case8 hn _ =>
    refine absurd ?_ hn
    rw [Bool.and_eq_true, decide_eq_true_eq, decide_eq_true_eq]
    exact h.1

/-- How many characters of the current group have been read. -/
def groupLength : B64State → Nat
  | .start => 0
  | .one _ => 1
  | .two _ _ => 2
  | .three _ _ _ => 3
  | .twoPad _ _ => 3

theorem b64Decode_gives (st : B64State) (ts : List B64Token) :
    Yields (b64Decode st ts) fun v => v.length ≤ groupLength st + ts.length := by
  fun_induction b64Decode st ts
  all_goals simp only [groupLength, List.length_cons] at *
  case case1 => exact .ok (by simp)
  case case4 => exact .err
  case case7 => exact .err
  case case10 => exact .err
  case case12 => exact .err
  case case13 => exact .err
  case case11 ih => exact ih.bind fun v h => .ok (by simp [bytesOf2]; omega)
  case case14 ih => exact ih.bind fun v h => .ok (by simp [bytesOf3]; omega)
  case case15 ih => exact ih.bind fun v h => .ok (by simp [bytesOf4]; omega)
  all_goals rename_i ih; exact ih.mono fun v h => by omega

theorem decodeBase64_gives (s : Bytes) : Yields (decodeBase64 s) fun v => v.length ≤ s.length := by
  rw [decodeBase64_eq]
  refine (b64Decode_gives _ _).mono fun v h => ?_
  have : (b64Tokens s).length ≤ s.length := List.length_filterMap_le _ _
  simp only [groupLength] at h
  omega

theorem decodeQp_gives (s : Bytes) : Yields (decodeQp s) fun v => v.length ≤ 3 * s.length := by
  rw [decodeQp_eq]
  exact .ok (qpDecode_length s)

variable {c : Cfg} {k : Nat}

theorem decodeCharset_gives (hk : 1 ≤ k) (hc : TextcodeAtMost k c) {charset value : Bytes} {text : Outcome Bytes}
    (h : decodeCharset c charset value = some text) : Yields text fun v => v.length ≤ k * value.length := by
  unfold decodeCharset at h
  split at h
  · cases h
    split
    · exact .ok (Nat.le_mul_of_pos_left _ hk)
    · exact .err
  · split at h
    · cases h
      exact .ok (hc _ _)
    · cases h

theorem decodeWord_gives (hk : 1 ≤ k) (hc : TextcodeAtMost k c) {charset encoding data : Bytes}
    (hd : ∀ b ∈ data, 32 ≤ b ∧ b ≤ 126) : Yields (decodeWord c charset encoding data) fun v => v.length ≤ k * data.length := by
  unfold decodeWord
  have h : Yields (decodeWord.decodeTransfer encoding data) fun v => v.length ≤ data.length := by
    unfold decodeWord.decodeTransfer
    split
    · exact decodeBase64_gives _
    · split
      · rw [decodeHeaderQp_eq]
        exact .ok (qDecode_length hd)
      · exact .err
  refine h.bind fun value hv => ?_
  split
  · rename_i text ht
    exact (decodeCharset_gives hk hc ht).mono fun v h => Nat.le_trans h (Nat.mul_le_mul_left _ hv)
  · exact .err

theorem encodedWord_gives (hk : 1 ≤ k) (hc : TextcodeAtMost k c) (i : Bytes) :
    Yields (encodedWord c i) fun a => a.2.length + (k + 1) * a.1.length + 1 ≤ (k + 1) * i.length := by
  unfold encodedWord
  refine (tag_gives' (by decide) i).bind fun a1 h1 => ?_
  have hcs : Yields (charset a1.1) fun a => a.1.length ≤ a1.1.length := by
    unfold charset
    exact (takeWhile1_gives _ _).bind fun a h => .ok (by dsimp only; omega)
  have hen (i : Bytes) : Yields (encoding i) fun a => a.1.length ≤ i.length := by
    unfold encoding
    exact (takeWhile1_gives _ _).bind fun a h => .ok (by dsimp only; omega)
  refine hcs.bind fun a2 h2 => ?_
  refine (optional_gives (P := fun a => a.1.length ≤ a2.1.length) (Q := fun a => a.1.length ≤ a2.1.length) ?_
    (fun r v h => h) (Nat.le_refl _)).bind fun a3 h3 => ?_
  · unfold pair
    refine (tag_gives' (by decide) _).bind fun a ha => (hen _).bind fun b hb => .ok ?_
    have ha : 1 + a.1.length ≤ a2.1.length := ha
    dsimp only
    omega
  refine (tag_gives' (by decide) _).bind fun a4 h4 => (hen _).bind fun a5 h5 => (tag_gives' (by decide) _).bind fun a6 h6 => ?_
  have htx : Yields (encodedText a6.1) fun a => (a.2.length + a.1.length = a6.1.length ∧ 0 < a.2.length) ∧
      ∀ b ∈ a.2, 32 ≤ b ∧ b ≤ 126 := by
    refine (takeWhile1_gives _ _).and ?_
    rintro ⟨r, v⟩ hq
    have := takeWhile1_parses (A := .none) (fun c => c > 0x20 && c ≤ 0x7E && c != 63) a6.1
    dsimp only at this
    rw [hq] at this
    obtain ⟨w, -, rfl, -, hb⟩ := this
    intro b hm
    have := hb b hm
    simp only [Bool.and_eq_true, decide_eq_true_eq] at this
    exact ⟨UInt8.le_of_lt this.1.1, this.1.2⟩
  refine htx.bind fun a7 h7 => (tag_gives' (by decide) _).bind fun a8 h8 =>
    (decodeWord_gives hk hc h7.2).bind fun text ht => .ok ?_
  have h : a7.2.length + (a8.1.length + 1) ≤ i.length := by
    obtain ⟨⟨h7, -⟩, -⟩ := h7
    omega
  have h := Nat.mul_le_mul_left (k + 1) h
  rw [Nat.mul_add, Nat.mul_add, Nat.add_mul k 1 a7.2.length] at h
  dsimp only
  omega

theorem percentStep_gives (s : Bytes) (n : Nat) : Yields (percentStep s n) fun v => v.length ≤ s.length := by
  unfold percentStep
  split
  · split
    · refine (Yields.any).bind fun m _ => ?_
      have h1 : Yields (getUncheckedMutSet s n (UInt8.ofNat m)) fun v => v.length ≤ s.length := by
        unfold getUncheckedMutSet
        split
        · exact .ok (by simp)
        · exact .abort
      have h2 (s : Bytes) (n : Nat) : Yields (vecErase s n) fun v => v.length ≤ s.length := by
        unfold vecErase
        split
        · refine .ok ?_
          rw [List.length_append, List.length_take, List.length_drop]
          omega
        · exact .abort
      exact h1.bind fun a ha => (h2 _ _).bind fun b hb => (h2 _ _).mono fun d hd => by omega
    · exact .ok (Nat.le_refl _)
  · exact .ok (Nat.le_refl _)

theorem percentLoop_gives : ∀ (ps : List Nat) (s : Bytes), Yields (percentLoop s ps) fun v => v.length ≤ s.length
  | [], _ => .ok (Nat.le_refl _)
  | n :: ps, s => by
    unfold percentLoop
    exact (percentStep_gives s n).bind fun a ha => (percentLoop_gives ps a).mono fun v h => by omega

theorem decodeParameter_gives (hk : 1 ≤ k) (hc : TextcodeAtMost k c) (value charset : Bytes) :
    Yields (decodeParameter c value charset) fun v => v.length ≤ k * value.length := by
  unfold decodeParameter
  split
  · exact .ok (Nat.le_mul_of_pos_left _ hk)
  · refine (percentLoop_gives _ _).bind fun a ha => ?_
    split
    · rename_i text ht
      exact (decodeCharset_gives hk hc ht).mono fun v h => Nat.le_trans h (Nat.mul_le_mul_left _ ha)
    · exact .err

theorem firstSegment_gives (hk : 1 ≤ k) (hc : TextcodeAtMost k c) (encoded : Bool) (value : Bytes) :
    Yields (firstSegment c encoded value) fun a => a.1.length ≤ k * value.length := by
  unfold firstSegment
  split
  · refine (takeWhile_gives _ _).bind fun a ha => (tag_gives _).bind fun b hb => (takeWhile_gives _ _).bind fun d hd =>
      (tag_gives _).bind fun e he => (decodeParameter_gives hk hc _ _).bind fun v hv => .ok ?_
    exact Nat.le_trans hv (Nat.mul_le_mul_left _ (by omega))
  · exact .ok (Nat.le_mul_of_pos_left _ hk)

end EmailParser
