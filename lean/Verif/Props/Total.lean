import Verif.Proofs.Entity
import Verif.Proofs.Overflow
import Verif.Proofs.CounterOverflow
import Verif.Model.Concrete
/-
C01, C02, C03: what can go wrong while parsing, other than returning an error.
-/
namespace EmailParser

variable (c : Cfg)

/-! ### C01 -/

/-- `Email::parse` returns `Ok` or `Err`: it never panics, never reads out of bounds and always
terminates, if the opening parentheses fit the stack and, in a build with overflow checks, there are
fewer than 256 asterisks. -/
theorem C01_email_parse_total (i : Bytes) (hs : i.count 40 ≤ c.stack)
    (ho : c.overflowChecks = true → c.feat.mime = true → i.count 42 < 256) :
    (∃ e, Email.parse c i = .ok e) ∨ (∃ e, Email.parse c i = .err e) := by
  cases h : Email.parse c i with
  | ok e => exact .inl ⟨e, rfl⟩
  | err e => exact .inr ⟨e, rfl⟩
  | abort k =>
    rcases email_abort h with ⟨-, h1⟩ | ⟨-, h1, h2, h3⟩
    · exact absurd h1 (by omega)
    · exact absurd (ho h1 h2) (by omega)

/-- No input at all makes `Email::parse` loop for ever or read outside of the input. -/
theorem C01_no_hang_no_undefined_behaviour (i : Bytes) :
    Email.parse c i ≠ .abort .hang ∧ Email.parse c i ≠ .abort .ub := by
  constructor <;> intro h <;> rcases email_abort h with ⟨h, -⟩ | ⟨h, -⟩ <;> cases h

/-- The same for parsing an entity of the message (`RawEntity::parse`), in terms of its decoded
value. -/
theorem C01_entity_parse_total (hm : c.feat.mime = true) (raw : RawEntity)
    (hs : raw.value.count 40 ≤ c.stack)
    (ho : c.overflowChecks = true → raw.value.count 42 < 256) :
    (∃ e, raw.parse c = .ok e) ∨ (∃ e, raw.parse c = .err e) := by
  cases h : raw.parse c with
  | ok e => exact .inl ⟨e, rfl⟩
  | err e => exact .inr ⟨e, rfl⟩
  | abort k =>
    rcases rawEntity_parse_abort hm raw k h with ⟨-, h1⟩ | ⟨-, h1, -, h3⟩
    · exact absurd h1 (by omega)
    · exact absurd (ho h1) (by omega)

theorem C01_entity_no_hang_no_undefined_behaviour (hm : c.feat.mime = true) (raw : RawEntity) :
    raw.parse c ≠ .abort .hang ∧ raw.parse c ≠ .abort .ub := by
  constructor <;> intro h <;>
    rcases rawEntity_parse_abort hm raw _ h with ⟨h, -⟩ | ⟨h, -⟩ <;> cases h

/-- A message that satisfies the assumptions, with parentheses and asterisks. -/
def totalExample : Bytes :=
  b! "From: a@b (c (d))\r\nDate: 1 Jan 2020 00:00:00 +0000\r\nSubject: *\r\n\r\nx"

example : totalExample.count 40 ≤ (Cfg.concrete Features.full).stack ∧
    totalExample.count 42 < 256 := by decide +kernel

def isOk {α : Type} : Outcome α → Bool
  | .ok _ => true
  | _ => false

example : isOk (Email.parse (Cfg.concrete Features.full) totalExample) = true := by decide +kernel

/-- The stack of the concrete configuration is used: with room for one nested comment only, the same
message overflows. -/
example : (match Email.parse (Cfg.concrete Features.full true 1) totalExample with
    | .abort .stackOverflow => true | _ => false) = true := by decide +kernel

/-! ### C02 -/

/-- Only an input with more opening parentheses than nested calls of `comment` fit on the stack can
exhaust the stack. -/
theorem C02_stack_overflow_needs_parentheses (i : Bytes)
    (h : Email.parse c i = .abort .stackOverflow) : c.stack < i.count 40 := by
  rcases email_abort h with ⟨-, h⟩ | ⟨h, -⟩
  · exact h
  · cases h

/-- For every stack there is a header that exhausts it: nesting is not limited. -/
theorem C02_nesting_not_limited (hf : c.feat.from = true) (rest : Bytes) :
    Email.parse c (b! "From:" ++ List.replicate (c.stack + 1) 40 ++ rest) =
      .abort .stackOverflow := by
  have h := comment_overflow c.stack rest
  rw [List.replicate_succ, List.cons_append] at h
  have hf := fields_overflow hf _ h
  unfold Email.parse parseMessage
  have he : b! "From:" ++ List.replicate (c.stack + 1) 40 ++ rest =
      b! "From:" ++ 40 :: (List.replicate c.stack 40 ++ rest) := by
    simp [List.replicate_succ]
  rw [he, hf]
  rfl

/-- The bound of C02 is exact: as many parentheses as the stack has room for do not overflow. -/
theorem C02_bound_is_exact (hf : c.feat.from = true) :
    Email.parse c (b! "From:" ++ List.replicate (c.stack + 1) 40) = .abort .stackOverflow ∧
    Email.parse c (b! "From:" ++ List.replicate c.stack 40) ≠ .abort .stackOverflow := by
  constructor
  · have := C02_nesting_not_limited c hf []
    rwa [List.append_nil] at this
  · intro h
    have := C02_stack_overflow_needs_parentheses c _ h
    rw [List.count_append, List.count_replicate_self] at this
    have h0 : (b! "From:").count 40 = 0 := by decide
    omega

example : (match Email.parse (Cfg.concrete Features.default true 3) (b! "From: (((())))") with
    | .abort .stackOverflow => true | _ => false) = true := by decide +kernel
example : (match Email.parse (Cfg.concrete Features.default true 3) (b! "From: ((()))") with
    | .abort .stackOverflow => true | _ => false) = false := by decide +kernel

/-! ### C03 -/

/-- Without overflow checks nothing panics. -/
theorem C03_no_panic_without_overflow_checks (i : Bytes) (ho : c.overflowChecks = false) :
    Email.parse c i ≠ .abort .panic := by
  intro h
  rcases email_abort h with ⟨h, -⟩ | ⟨-, h, -⟩
  · cases h
  · rw [ho] at h; cases h

/-- With overflow checks an input with fewer than 256 asterisks does not panic. -/
theorem C03_panic_needs_256_asterisks (i : Bytes) (h : Email.parse c i = .abort .panic) :
    256 ≤ i.count 42 := by
  rcases email_abort h with ⟨h, -⟩ | ⟨-, -, -, h⟩
  · cases h
  · exact h

/-- With overflow checks the collection of parameters panics if some parameter has all the 256
segments that an `u8` can number (`Spec.segment ps name k` is the last parameter `name*k`). -/
theorem C03_all_segments_panic (ho : c.overflowChecks = true) (ps : List RawParam)
    (hs : ∀ p ∈ ps, ∀ k, p.index = some k → k < 256) (hp : ∀ p ∈ ps, p.encoded = false)
    (name : Bytes) (ha : ∀ k, k < 256 → (Spec.segment ps name k).isSome = true) :
    collectParameters c ps = .abort .panic :=
  collectParameters_panic ho hs hp ha

/-- Conversely it panics only in that case, and never does anything else than return. -/
theorem C03_only_all_segments_panic (ps : List RawParam)
    (hs : ∀ p ∈ ps, ∀ k, p.index = some k → k < 256) (a : Abort)
    (h : collectParameters c ps = .abort a) : a = .panic ∧ c.overflowChecks = true ∧
      ∃ name, ∀ k, k < 256 → (Spec.segment ps name k).isSome = true :=
  (collectParameters_spec hs).2.2 a h

/-- The decimal digits of a number. -/
def digitsOf (n : Nat) : Bytes := (Nat.toDigits 10 n).map fun ch => UInt8.ofNat ch.toNat

/-- A header with the parameters `a*0` to `a*255`. -/
def overflowInput : Bytes := b! "Content-Type:a/b" ++
  (List.range 256).flatMap (fun k => b! ";a*" ++ digitsOf k ++ b! "=x") ++ b! "\r\n"

def isPanic {α : Type} : Outcome α → Bool
  | .abort .panic => true
  | _ => false

/-- A whole message (2.7 kB) that panics in a build with overflow checks... -/
example : isPanic (Email.parse (Cfg.concrete Features.full) overflowInput) = true := by
  decide +kernel

/-- ...and not in one without. -/
example : isPanic (Email.parse (Cfg.concrete Features.full false) overflowInput) = false := by
  decide +kernel

end EmailParser
