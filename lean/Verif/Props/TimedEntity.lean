import Verif.Proofs.Timed.EntityLower
import Verif.Props.Timed
/-
The number of steps that reading one level of a MIME body takes.

A step is a step of the parsers of the headers (`Model/Timed.lean`) or of the decoders
(`Model/TimedCodecs.lean`), an index tried for a delimiter, or a byte compared with a delimiter
(`Model/TimedEntity.lean`).
-/
namespace EmailParser

/-! ### C65: one level of a MIME body is read in quadratic time -/

/-- The functions that count their steps come to the same outcomes as `raw_entity` and
`RawEntity::parse`. -/
theorem C65_same_outcome (c : Cfg) (input : Bytes) (raw : RawEntity) :
    (Timed.rawEntity c input).out = rawEntity c input ∧ (Timed.entity c raw).out = raw.parse c :=
  ⟨Timed.rawEntity_out input, Timed.entity_out raw⟩

/-- One part is read, with its headers, and decoded, in a number of steps at most proportional to the
square of its length. -/
theorem C65_part (c : Cfg) (input : Bytes) :
    (Timed.rawEntity c input).cost ≤ 5000000 * ((input.length + 1) * (input.length + 1)) :=
  Nat.le_trans ((Timed.rawEntity_within input).cost fun _ _ h => h) (Nat.mul_le_mul_right _ (by decide))

/-- All of the parts of an entity are found, read and decoded in a number of steps at most proportional
to the square of the length of the value, however many parts there are, and however long the boundary
is. -/
theorem C65_quadratic (c : Cfg) (raw : RawEntity) :
    (Timed.entity c raw).cost ≤ 5000000 * ((raw.value.length + 1) * (raw.value.length + 1)) :=
  Nat.le_trans (Timed.entity_cost raw) (Nat.mul_le_mul_right _ (by decide))

/-- The square is reached, by the search for the delimiters alone: in a value that repeats the beginning
of a delimiter, with a boundary that repeats it too, and ends with another byte. -/
theorem C65_quadratic_reached (c : Cfg) (raw : RawEntity) (n : Nat) (ht : raw.mimeType = .multipart)
    (hb : raw.parameters (b! "boundary") = some (times n (b! "\r\n--") ++ b! "x"))
    (hv : raw.value = times (2 * n + 2) (b! "\r\n--")) :
    (n + 1) * (4 * n + 1) ≤ (Timed.entity c raw).cost ∧ raw.value.length = 8 * n + 8 := by
  have h : ∀ k, times k (b! "\r\n--") = Timed.almost k := by
    intro k
    induction k with
    | zero => rfl
    | succ k ih =>
      have : times (k + 1) (b! "\r\n--") = b! "\r\n--" ++ times k (b! "\r\n--") := rfl
      rw [this, ih]
      rfl
  rw [h] at hb hv
  exact ⟨Timed.entity_almost raw n ht hb hv, by rw [hv, Timed.almost_length]; omega⟩

/-! ### Examples -/

/-- A boundary like this can be written in a header: the percent signs are decoded. -/
example : (match Email.parse (Cfg.concrete .full) (shortHeader ++
      b! "Content-Type: multipart/mixed; boundary*0*=utf-8''%0D%0A--%0D%0A--x\r\n\r\n" ++
      times 6 (b! "\r\n--") ++ b! "\r\n") with
    | .ok e => e.mimeEntity.map fun raw => (decide (raw.mimeType = ContentType.multipart), raw.parameters (b! "boundary"), raw.value)
    | _ => none) =
    some (true, some (times 2 (b! "\r\n--") ++ b! "x"), times 6 (b! "\r\n--") ++ b! "\r\n") := by
  decide +kernel

/-- The members of the family for 10 and 20. -/
def almostDelimiters (n : Nat) : RawEntity :=
  { mimeType := .multipart, subtype := b! "mixed", description := none, id := none,
    parameters := Params.empty.insert (b! "boundary") (times n (b! "\r\n--") ++ b! "x"),
    disposition := none, value := times (2 * n + 2) (b! "\r\n--"), additionalHeaders := [] }

example : (Timed.entity (Cfg.concrete .full) (almostDelimiters 10)).cost = 1982 ∧
    (Timed.entity (Cfg.concrete .full) (almostDelimiters 20)).cost = 5482 := by decide +kernel

/-- Two parts. -/
example : (Timed.entity (Cfg.concrete .full) { almostDelimiters 0 with
      value := b! "--x\r\n\r\none\r\n--x\r\nContent-Transfer-Encoding: base64\r\n\r\ndHdv\r\n--x--\r\n" }).cost = 714 := by
  decide +kernel

end EmailParser
