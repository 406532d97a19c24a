import Verif.Proofs.Base64Encode
import Verif.Proofs.Timed.Codecs
import Verif.Props.Timed
/-
The number of steps the codecs make.

A step is an iteration of a loop, a byte written, or a byte that `Vec::insert`, `Vec::remove` or
`Vec::drain` moves to make or close a gap (`Model/TimedCodecs.lean`).
-/
namespace EmailParser

/-! ### C63: base64 is linear; the codecs that edit the buffer in the middle are quadratic -/

/-- The codecs that count their steps come to the same outcomes as the codecs. -/
theorem C63_same_outcome (c : Cfg) (data charset : Bytes) :
    (Timed.decodeQp data).out = decodeQp data ∧ (Timed.decodeHeaderQp data).out = decodeHeaderQp data ∧
    (Timed.encodeQp data).out = encodeQp data ∧ (Timed.decodeBase64 data).out = decodeBase64 data ∧
    (Timed.encodeBase64 data).out = encodeBase64 data ∧
    (Timed.decodeParameter c data charset).out = decodeParameter c data charset :=
  ⟨Timed.decodeQpLoop_out .., Timed.decodeHeaderQpLoop_out .., Timed.encodeQpLoop_out .., Timed.base64Main_out ..,
    Timed.encodeBase64Loop_out .., Timed.decodeParameter_out ..⟩

/-- Base64 is decoded, or rejected, in a number of steps at most proportional to the length of the data,
and encoded in exactly one iteration for every three bytes, the last of which may be incomplete. -/
theorem C63_base64_linear (data : Bytes) :
    (Timed.decodeBase64 data).cost ≤ 2 * data.length + 6 ∧ (Timed.encodeBase64 data).cost = (data.length + 2) / 3 := by
  refine ⟨(Timed.within_base64Main _ data 0 0 (Nat.zero_le _)).cost fun _ _ h => h, ?_⟩
  have h := Timed.within_encodeBase64Loop data 0
  unfold Timed.Within at h
  rw [Timed.encodeBase64Loop_out, show encodeBase64Loop 0 data = _ from encodeBase64_eq data] at h
  exact (Nat.zero_add _).symm.trans h

/-- The quoted-printable codecs and the percent decoder make a number of steps at most proportional to the
square of the length of the data. -/
theorem C63_quadratic (c : Cfg) (data charset : Bytes) :
    (Timed.decodeQp data).cost ≤ 3 * ((data.length + 1) * (data.length + 1)) ∧
    (Timed.decodeHeaderQp data).cost ≤ 3 * ((data.length + 1) * (data.length + 1)) ∧
    (Timed.encodeQp data).cost ≤ 6 * ((data.length + 1) * (data.length + 1)) ∧
    (Timed.decodeParameter c data charset).cost ≤ 3 * ((data.length + 1) * (data.length + 1)) :=
  ⟨(Timed.within_decodeQpLoop _ data 0).cost fun _ _ h => h,
    (Timed.within_decodeHeaderQpLoop _ data 0).cost fun _ _ h => h,
    (Timed.within_encodeQpLoop _ data 0 0).cost fun _ _ h => h,
    (Timed.within_decodeParameter c data charset).cost fun _ _ h => h⟩

/-- The square is reached, by texts of any length: each escape is closed up by moving everything behind it
twice.  So there is no linear bound for these codecs. -/
theorem C63_quadratic_reached (c : Cfg) (n : Nat) :
    (Timed.decodeQp (times n (b! "=41"))).cost = 3 * (n * n) + 2 * n + 1 ∧
    (Timed.decodeHeaderQp (times n (b! "=41"))).cost = 3 * (n * n) + 2 * n + 1 ∧
    2 * (n * n) ≤ (Timed.encodeQp (List.replicate n 0)).cost ∧
    (Timed.decodeParameter c (times n (b! "%41")) (b! "utf-8")).cost = n * n + 6 * n + 1 := by
  have hl : ∀ p : Bytes, (times n p).length = n * p.length := Timed.flatten_length n
  refine ⟨Timed.decodeQpLoop_family n _ [] ?_, Timed.decodeHeaderQpLoop_family n _ [] ?_,
    Timed.encodeQpLoop_family n _ 0 [] ?_, Timed.decodeParameter_family c n (by decide +kernel)⟩
  · rw [hl, List.length_cons, List.length_cons, List.length_singleton]
    omega
  · rw [hl, List.length_cons, List.length_cons, List.length_singleton]
    omega
  · rw [List.length_replicate]
    omega

/-- A linear bound would be wrong, whatever its constant, even for texts that encode nothing but letters. -/
theorem C63_not_linear (k : Nat) : ∃ data n, k * (data.length + 1) < (Timed.decodeQp data).cost ∧
    decodeQp data = .ok (List.replicate n 65) := by
  refine ⟨times (k + 1) (b! "=41"), k + 1, ?_, ?_⟩
  · rw [(C63_quadratic_reached (Cfg.concrete .full) (k + 1)).1, Timed.mul_self_succ,
      show (times (k + 1) (b! "=41")).length = (k + 1) * 3 from Timed.flatten_length _ _,
      show (k + 1) * 3 + 1 = 3 * k + 4 by omega, Nat.mul_add, Nat.mul_left_comm]
    omega
  · rw [decodeQp_eq]
    exact congrArg _ (Timed.qpDecode_family (k + 1))

/-! ### Examples -/

/-- Four times the data: less than four times the steps with base64, about sixteen times with quoted-printable. -/
example : (Timed.decodeBase64 (times 2 (b! "QUFB"))).cost = 18 ∧ (Timed.decodeBase64 (times 8 (b! "QUFB"))).cost = 66 ∧
    (Timed.decodeQp (times 8 (b! "=41"))).cost = 209 ∧ (Timed.decodeQp (times 32 (b! "=41"))).cost = 3137 := by
  decide +kernel

/-- Bytes copied as they are cost one step each; an escape costs one step for every byte moved. -/
example : (Timed.encodeQp (b! "abc")).cost = 4 ∧ (Timed.encodeQp [0, 0]).cost = 21 ∧
    (Timed.encodeQp (b! "a \r\nb")).cost = 24 ∧ (Timed.decodeHeaderQp (b! "a_=41")).cost = 9 ∧
    (Timed.decodeQp (b! "abc")).cost = 4 := by
  decide +kernel

end EmailParser
