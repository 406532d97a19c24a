import Verif.Proofs.Body
/-
The message level: src/parsing/message.rs and src/email.rs.
-/
namespace EmailParser
open Spec (Gram)

variable {α : Type} {c : Cfg}

/-! ### No errors from the loops -/

theorem manyLoop_no_err {p : Bytes → Res α} : ∀ fuel i e, manyLoop p fuel i ≠ .err e
  | 0, _, _ => by simp [manyLoop]
  | fuel + 1, i, e => by
    unfold manyLoop
    cases p i with
    | err e => simp
    | abort k => simp
    | ok r =>
      dsimp only
      cases h : manyLoop p fuel r.1 with
      | err e => exact absurd h (manyLoop_no_err fuel _ _)
      | abort k => simp
      | ok s => simp

theorem many_no_err {p : Bytes → Res α} (i : Bytes) (e : Error) : many i p ≠ .err e :=
  manyLoop_no_err _ _ _

theorem traces_no_err (i : Bytes) (e : Error) : traces c i ≠ .err e := by
  unfold traces
  split
  · exact many_no_err _ _
  · simp

theorem fields_no_err (i : Bytes) (e : Error) : fields c i ≠ .err e := by
  intro h
  unfold fields at h
  rcases bind_eq_err.mp h with h | ⟨r, -, h⟩
  · exact traces_no_err _ _ h
  · rcases bind_eq_err.mp h with h | ⟨r, -, h⟩
    · exact many_no_err _ _ h
    · cases h

/-! ### The message -/

/-- The error for something that is not a header after the header block. -/
def headersError : Error := .explicit "TAG ERROR: Headers must be followed by a CRLF sequence."

/-- What `parse_message` does after the header block. -/
theorem body_spec (i : Bytes) :
    match body i with
    | .ok none => i = []
    | .ok (some w) => i = Spec.CRLF ++ w ∧ Spec.Body w
    | .err e => (e = headersError ∧ i ≠ [] ∧ ¬ Spec.CRLF <+: i) ∨
        (e = bodyError ∧ ∃ w, i = Spec.CRLF ++ w ∧ ¬ Spec.Body w)
    | .abort _ => False := by
  unfold body
  by_cases hi : i = []
  · subst hi; rfl
  · rw [if_neg (by simpa using hi)]
    rcases tag_cases i (b! "\r\n")
        "TAG ERROR: Headers must be followed by a CRLF sequence." with ⟨r, hr, ht⟩ | ⟨hn, ht⟩
    · rw [ht]
      show match ((bodyLoop (r.length + 1) r).bind fun _ =>
        (getUncheckedFrom i 2).bind fun v => .ok (some v) : Outcome (Option Bytes)) with
        | .ok none => i = []
        | .ok (some w) => i = Spec.CRLF ++ w ∧ Spec.Body w
        | .err e => (e = headersError ∧ i ≠ [] ∧ ¬ Spec.CRLF <+: i) ∨
            (e = bodyError ∧ ∃ w, i = Spec.CRLF ++ w ∧ ¬ Spec.Body w)
        | .abort _ => False
      rw [bodyLoop_eq]
      have h := bodyLinesLoop_spec (r.length + 1) r (by omega)
      cases hx : bodyLinesLoop (r.length + 1) r with
      | abort k => rw [hx] at h; exact h
      | err e =>
        rw [hx] at h
        exact .inr ⟨h.1, r, hr, h.2⟩
      | ok ls =>
        rw [hx] at h
        have hg : getUncheckedFrom i 2 = .ok r := by
          rw [hr]; exact getUncheckedFrom_append (b! "\r\n") r
        show match ((getUncheckedFrom i 2).bind fun v => .ok (some v) : Outcome (Option Bytes)) with
          | .ok none => i = []
          | .ok (some w) => i = Spec.CRLF ++ w ∧ Spec.Body w
          | .err e => (e = headersError ∧ i ≠ [] ∧ ¬ Spec.CRLF <+: i) ∨
              (e = bodyError ∧ ∃ w, i = Spec.CRLF ++ w ∧ ¬ Spec.Body w)
          | .abort _ => False
        rw [hg]
        exact ⟨hr, ls, h⟩
    · rw [ht]
      exact .inl ⟨rfl, hi, hn⟩

/-- The part of `parse_message` after the header block. -/
def afterHeaders (c : Cfg) (input : Bytes) : Outcome (Option Bytes) :=
  if c.feat.mime then
    if input.isEmpty then .ok none
    else do
      let (newInput, ()) ← tag input (b! "\r\n")
        "TAG ERROR: Headers must be followed by a CRLF sequence."
      .ok (some newInput)
  else body input

theorem parseMessage_eq (i : Bytes) : parseMessage c i =
    (fields c i).bind fun r => (afterHeaders c r.1).bind fun b => .ok (r.2, b) := by
  unfold parseMessage afterHeaders
  show (fields c i).bind _ = (fields c i).bind _
  congr 1
  funext r
  obtain ⟨i, fs⟩ := r
  dsimp only
  split
  · split
    · rfl
    · cases tag i (b! "\r\n") "TAG ERROR: Headers must be followed by a CRLF sequence." <;> rfl
  · rfl

theorem afterHeaders_spec (i : Bytes) :
    match afterHeaders c i with
    | .ok none => i = []
    | .ok (some w) => i = Spec.CRLF ++ w ∧ (c.feat.mime = false → Spec.Body w)
    | .err e => (e = headersError ∧ i ≠ [] ∧ ¬ Spec.CRLF <+: i) ∨
        (c.feat.mime = false ∧ e = bodyError ∧ ∃ w, i = Spec.CRLF ++ w ∧ ¬ Spec.Body w)
    | .abort _ => False := by
  unfold afterHeaders
  cases hm : c.feat.mime with
  | true =>
    rw [if_pos rfl]
    by_cases hi : i = []
    · subst hi; rfl
    · rw [if_neg (by simpa using hi)]
      rcases tag_cases i (b! "\r\n")
          "TAG ERROR: Headers must be followed by a CRLF sequence." with ⟨r, hr, ht⟩ | ⟨hn, ht⟩
      · rw [ht]
        exact ⟨hr, by simp⟩
      · rw [ht]
        exact .inl ⟨rfl, hi, hn⟩
  | false =>
    rw [if_neg (by simp)]
    have h := body_spec i
    cases hx : body i with
    | abort k => rw [hx] at h; exact h
    | err e =>
      rw [hx] at h
      rcases h with h | h
      · exact .inl h
      · exact .inr ⟨rfl, h⟩
    | ok b =>
      rw [hx] at h
      cases b with
      | none => exact h
      | some w => exact ⟨h.1, fun _ => h.2⟩

theorem parseMessage_sat (i : Bytes) :
    (parseMessage c i).Sat (fun r => Spec.Message c i r) ((aborts c).P i) := by
  rw [parseMessage_eq]
  have h1 := fields_parses (c := c) i
  cases hx : fields c i with
  | abort k => rw [hx] at h1; exact h1
  | err e => trivial
  | ok r =>
    rw [hx] at h1
    obtain ⟨r, fs⟩ := r
    obtain ⟨w, hi, hw⟩ := h1
    have h2 := afterHeaders_spec (c := c) r
    show ((afterHeaders c r).bind fun b => .ok (fs, b)).Sat _ _
    cases hy : afterHeaders c r with
    | abort k => rw [hy] at h2; exact h2.elim
    | err e => trivial
    | ok b =>
      rw [hy] at h2
      cases b with
      | none =>
        dsimp only at h2 hi
        exact ⟨w, [], fs, by rw [hi, h2], hw, .inl ⟨rfl, rfl⟩⟩
      | some b =>
        dsimp only at h2 hi
        exact ⟨w, r, fs, hi, hw, .inr ⟨Spec.CRLF, b, (), h2.1, rfl, rfl, h2.2⟩⟩

/-! ### The e-mail -/

theorem decodeBase64_no_abort (data : Bytes) (k : Abort) : decodeBase64 data ≠ .abort k := by
  rw [decodeBase64_eq]
  exact b64Decode_no_abort _ _ _

theorem decodeValue_no_abort (v : Bytes) (e : ContentTransferEncoding) (k : Abort) :
    decodeValue v e ≠ .abort k := by
  cases e with
  | base64 => exact decodeBase64_no_abort v k
  | quotedPrintable => simp [decodeValue, decodeQp_eq]
  | _ => simp [decodeValue]

theorem setOnce_no_abort {name : String} {old : Option α} {v : α} {set} (k : Abort) :
    setOnce name old v set ≠ .abort k := by
  cases old <;> simp [setOnce]

theorem add_no_abort (a : EmailAcc) (f : Field) (k : Abort) : a.add f ≠ .abort k := by
  cases f <;> simp only [EmailAcc.add, ne_eq, reduceCtorEq, not_false_eq_true] <;>
    exact setOnce_no_abort k

theorem addAll_no_abort : ∀ (fs : List Field) (a : EmailAcc) (k : Abort), a.addAll fs ≠ .abort k
  | [], _, _ => by simp [EmailAcc.addAll]
  | f :: fs, a, k => by
    intro h
    rcases bind_eq_abort.mp h with h | ⟨a', -, h⟩
    · exact add_no_abort _ _ _ h
    · exact addAll_no_abort fs a' k h

theorem required_no_abort {b : Bool} {name : String} {x : Option α} (k : Abort) :
    required b name x ≠ .abort k := by
  unfold required
  split
  · split <;> simp
  · simp

theorem inferSender_no_abort {b : Bool} {s : Option Mailbox} {fr : Option (List Mailbox)}
    (k : Abort) : inferSender b s fr ≠ .abort k := by
  unfold inferSender
  split
  · split
    · simp
    · split
      · rename_i h
        split
        · simp
        · rename_i h'
          rw [h'] at h; simp at h
      · simp
  · simp

theorem entity_no_abort (a : EmailAcc) (b : Option Bytes) (k : Abort) :
    a.entity c b ≠ .abort k := by
  unfold EmailAcc.entity
  split
  · intro h
    rcases bind_eq_abort.mp h with h | ⟨v, -, h⟩
    · cases b with
      | none => simp [decodeBody] at h
      | some v =>
        rcases bind_eq_abort.mp h with h | ⟨v, -, h⟩
        · exact decodeValue_no_abort _ _ _ h
        · cases h
    · cases h
  · simp

theorem finish_no_abort (a : EmailAcc) (b : Option Bytes) (k : Abort) :
    a.finish c b ≠ .abort k := by
  intro h
  unfold EmailAcc.finish at h
  rcases bind_eq_abort.mp h with h | ⟨x, -, h⟩
  · exact required_no_abort _ h
  rcases bind_eq_abort.mp h with h | ⟨x, -, h⟩
  · exact required_no_abort _ h
  rcases bind_eq_abort.mp h with h | ⟨x, -, h⟩
  · exact inferSender_no_abort _ h
  rcases bind_eq_abort.mp h with h | ⟨x, -, h⟩
  · exact entity_no_abort _ _ _ h
  cases h

theorem email_abort {i : Bytes} {k : Abort} (h : Email.parse c i = .abort k) :
    (aborts c).P i k := by
  unfold Email.parse at h
  rcases bind_eq_abort.mp h with h | ⟨x, -, h⟩
  · exact (parseMessage_sat i).of_abort h
  rcases bind_eq_abort.mp h with h | ⟨x, -, h⟩
  · exact (addAll_no_abort _ _ _ h).elim
  · exact (finish_no_abort _ _ _ h).elim

end EmailParser
