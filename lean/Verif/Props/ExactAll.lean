import Verif.Proofs.ExactAll
/-
C83: what is returned for any input at all, to the letter.  `Spec.Split`, `Spec.MadeOf` and `Spec.Returned` are in
Verif/Spec/ExactAll.lean.
-/
namespace EmailParser
open Spec

variable (c : Cfg)

/-! ### C83: the header block of an input -/

theorem least_of {P : Nat → Prop} {k : Nat} (h : P k) : ∃ k, P k ∧ ∀ j, j < k → ¬ P j := by
  induction k using Nat.strongRecOn with
  | _ k ih =>
    by_cases h' : ∃ j, j < k ∧ P j
    · obtain ⟨j, hj, h'⟩ := h'
      exact ih j hj h'
    · exact ⟨k, h, fun j hj hp => h' ⟨j, hj, hp⟩⟩

/-- The first empty line divides every input in one way. -/
theorem C83_split (i : Bytes) : ∃ head tail, Split i head tail ∧ ∀ head' tail', Split i head' tail' → head' = head ∧ tail' = tail := by
  by_cases h1 : CRLF <+: i
  · obtain ⟨b, rfl⟩ := h1
    refine ⟨[], CRLF ++ b, .first rfl, fun head' tail' h => ?_⟩
    cases h with
    | none h => exact absurd (List.prefix_append _ _) h
    | first h => exact ⟨rfl, h.symm⟩
    | later h => exact absurd (List.prefix_append _ _) h
  by_cases h2 : Occurs (CRLF ++ CRLF) i
  · obtain ⟨k, hk, hmin⟩ : ∃ k, OccursAt (CRLF ++ CRLF) i k ∧ ∀ j, j < k → ¬ OccursAt (CRLF ++ CRLF) i j := by
      obtain ⟨k, hk⟩ := h2
      exact least_of hk
    obtain ⟨b, hb⟩ := hk
    have hlen : (i.take k).length = k := by
      have := congrArg List.length hb
      simp [CRLF] at this
      simp
      omega
    have hf : FirstOccurrence (CRLF ++ CRLF) i (i.take k) b :=
      ⟨by rw [List.append_assoc, hb, List.take_append_drop], fun j hj => hmin j (by omega)⟩
    refine ⟨_, _, .later h1 hf, fun head' tail' h => ?_⟩
    cases h with
    | none _ h => exact absurd h2 h
    | first h => exact absurd ⟨_, h.symm⟩ h1
    | later _ h =>
      obtain ⟨rfl, rfl⟩ := h.unique hf
      exact ⟨rfl, rfl⟩
  · refine ⟨i, [], .none h1 h2, fun head' tail' h => ?_⟩
    cases h with
    | none => exact ⟨rfl, rfl⟩
    | first h => exact absurd ⟨_, h.symm⟩ h1
    | later _ h => exact absurd ⟨_, h.occurs⟩ h2

/-- A text is made of header lines in one way at most. -/
theorem C83_lines (w : Bytes) (ls ls' : List Bytes) (h : MadeOf w ls) (h' : MadeOf w ls') : ls = ls' :=
  (HLine.split (t := []) (t' := []) (fun l hl => IsHeaderText.hline (Cfg.concrete .full) (h.2 l hl))
    (fun l hl => IsHeaderText.hline (Cfg.concrete .full) (h'.2 l hl)) (by rw [← h.1, ← h'.1]) .nil .nil).1

/-- Whatever is accepted has the header block before its first empty line; it consists of lines that begin with a name and a
colon, and if none of these is white, it is made of header lines. -/
theorem C83_accepted_lines (hc : c.feat.compiles) (i head tail : Bytes) (e : Email) (hs : Split i head tail)
    (h : Email.parse c i = .ok e) : HeaderLines head ∧ (¬ WhiteLine head → ∃ ls, MadeOf head ls) := by
  obtain ⟨w, t, fs, b, rfl, ht, h1, -, hw, -⟩ := parse_parts hc h
  obtain ⟨_, _, -, hu⟩ := C83_split (w ++ t)
  obtain ⟨rfl, rfl⟩ := hu _ _ (split_lines hw ht)
  obtain ⟨rfl, rfl⟩ := hu _ _ hs
  exact ⟨hw, madeOf_lines hw⟩

/-! ### What is returned -/

theorem madeOf_within {head : Bytes} {ls : List Bytes} (h : MadeOf head ls) (hf : Fits c head) : ∀ l ∈ ls, MessageLine c l := by
  intro l hl
  obtain ⟨name, x, w, hx⟩ := h.2 l hl
  have hi : w <:+: head := by
    have h1 : w <:+: l := ⟨name ++ b! ":", CRLF, by rw [hx.text]⟩
    rw [h.1]
    exact h1.trans (List.infix_of_mem_flatten hl)
  refine ⟨name, x, w, hx, .inl ⟨Nat.le_trans (hi.sublist.count_le 40) hf.depth, fun ho => ?_⟩⟩
  exact Nat.lt_of_le_of_lt (hi.sublist.count_le 42) (hf.stars ho)

theorem fields_head_abort {head tail : Bytes} {k : Abort} (ht : Ended tail)
    (hh : tail = [] ∨ head = [] ∨ ∃ p, head = p ++ [13, 10]) (hf : Fits c head) : fields c (head ++ tail) ≠ .abort k := by
  have key : ∀ k, fields c head ≠ .abort k := by
    intro k h
    rcases (fields_parses (c := c) head).of_abort h with ⟨-, h⟩ | ⟨-, ho, -, h⟩
    · have := hf.depth
      omega
    · have := hf.stars ho
      omega
  intro h
  rcases hh with rfl | hh
  · rw [List.append_nil] at h
    exact key k h
  have hat : At [] tail head (head ++ tail) := by
    rcases hh with rfl | ⟨p, rfl⟩
    · exact .done
    · simpa using At.inside (t := []) (t' := tail) p
  rcases (fields_block (c := c) .nil ht).cases hat with ⟨s, s', v, -, -, h2⟩ | ⟨e, e', -, h2⟩ | ⟨k', h1, -⟩
  · rw [h] at h2; cases h2
  · rw [h] at h2; cases h2
  · exact key k' h1

/-- What must be returned is returned, if a header block that is read in full is made of header lines. -/
theorem returned_parse (hc : c.feat.compiles) {i head tail : Bytes} (hs : Split i head tail)
    (hw : ∀ fs, HeaderBlock c head fs → ∃ ls, MadeOf head ls) (hf : Fits c head) : Returned c head tail (Email.parse c i) := by
  obtain ⟨rfl, ht, hh⟩ := split_ended hs
  have ht' : tail = [] ∨ CRLF <+: tail := by
    cases ht with
    | nil => exact .inl rfl
    | crlf b => exact .inr ⟨b, rfl⟩
  by_cases hm : ∃ ls, MadeOf head ls
  · obtain ⟨ls, hm⟩ := hm
    have hls := madeOf_within c hm hf
    obtain ⟨ts, rest, hp, -⟩ := C81_parted c ls hls
    by_cases he : ∃ fs, EachMeans c rest fs
    · obtain ⟨fs, he⟩ := he
      by_cases hb : ∃ content, BodyL c tail content
      · obtain ⟨content, hb⟩ := hb
        refine .read hm hp he hb ?_
        have := C81_message c hc ls rest ts fs tail content hls hp he hb
        rwa [← hm.1] at this
      · have hbad : ∃ b, tail = CRLF ++ b ∧ c.feat.mime = false ∧ ¬ Body b := by
          rcases ht' with rfl | ⟨b, rfl⟩
          · exact absurd ⟨_, .none⟩ hb
          · refine ⟨b, rfl, ?_⟩
            by_cases hmi : c.feat.mime = false
            · exact ⟨hmi, fun h => hb ⟨_, .some fun _ => h⟩⟩
            · exact absurd ⟨_, .some fun h => absurd h hmi⟩ hb
        obtain ⟨b, rfl, hmi, hbb⟩ := hbad
        have h1 := C81_fields c ls rest ts fs _ hls hp he ht'
        rw [← hm.1] at h1
        have h2 : Email.parse c (head ++ (CRLF ++ b)) = .err bodyError := by
          rw [email_parse_eq, parseMessage_eq, h1]
          have ha := afterHeaders_spec (c := c) (CRLF ++ b)
          show ((afterHeaders c (CRLF ++ b)).bind _).bind _ = _
          cases hx : afterHeaders c (CRLF ++ b) with
          | abort k => rw [hx] at ha; exact ha.elim
          | ok r =>
            rw [hx] at ha
            cases r with
            | none => cases ha
            | some w =>
              obtain ⟨e, hw⟩ := ha
              obtain rfl := List.append_cancel_left e
              exact absurd (hw hmi) hbb
          | err e =>
            rw [hx] at ha
            rcases ha with ⟨-, -, h⟩ | ⟨-, rfl, -⟩
            · exact absurd (List.prefix_append _ _) h
            · rfl
        rw [h2]
        exact .body hm hp he rfl hmi hbb
    · have he : ∀ fs, ¬ EachMeans c rest fs := fun fs h => he ⟨fs, h⟩
      have := C81_rejected c ls rest ts tail hls hp he ht'
      rw [← hm.1] at this
      rw [this]
      exact .cut hm hp he
  · have hno : ∀ ls, ¬ MadeOf head ls := fun ls h => hm ⟨ls, h⟩
    cases hx : fields c (head ++ tail) with
    | abort k => exact absurd hx (fields_head_abort c ht hh hf)
    | err e => exact absurd hx (fields_no_err _ _)
    | ok r =>
      obtain ⟨t, fs⟩ := r
      have hend : ¬ (t = [] ∨ CRLF <+: t) := by
        intro hend
        obtain ⟨w, e, hw'⟩ := (fields_parses (c := c) (head ++ tail)).of_ok hx
        have hl := (lines_headerBlock (strOk_utf8 c) hc.2 _ _ hw').1
        obtain ⟨_, _, -, hu⟩ := C83_split (head ++ tail)
        have h1 := split_lines hl (ended_of hend)
        rw [← e] at h1
        obtain ⟨rfl, rfl⟩ := hu _ _ h1
        obtain ⟨rfl, rfl⟩ := hu _ _ hs
        exact hm (hw _ hw')
      have h2 : Email.parse c (head ++ tail) = .err headersError := by
        rw [email_parse_eq, parseMessage_eq, hx]
        have ha := afterHeaders_spec (c := c) t
        show ((afterHeaders c t).bind _).bind _ = _
        cases hx : afterHeaders c t with
        | abort k => rw [hx] at ha; exact ha.elim
        | ok r =>
          rw [hx] at ha
          cases r with
          | none => exact absurd (.inl ha) hend
          | some w => exact absurd (.inr ⟨w, ha.1.symm⟩) hend
        | err e =>
          rw [hx] at ha
          rcases ha with ⟨rfl, -⟩ | ⟨-, -, w, h, -⟩
          · rfl
          · exact absurd (.inr ⟨w, h.symm⟩) hend
      rw [h2]
      exact .other hno

theorem returned_unique (hc : c.feat.compiles) {head tail : Bytes} (hf : Fits c head) {r r' : Outcome Email}
    (h : Returned c head tail r) (h' : Returned c head tail r') : r = r' := by
  have lines : ∀ {ls ls' ts ts' rest rest'}, MadeOf head ls → MadeOf head ls' → Parted c ls ts rest → Parted c ls' ts' rest' →
      ts = ts' ∧ rest = rest' := by
    intro ls ls' ts ts' rest rest' h h' hp hp'
    obtain rfl := C83_lines _ _ _ h h'
    obtain ⟨_, _, -, hu⟩ := C81_parted c ls (madeOf_within c h hf)
    obtain ⟨rfl, rfl⟩ := hu _ _ hp
    obtain ⟨rfl, rfl⟩ := hu _ _ hp'
    exact ⟨rfl, rfl⟩
  have bodies : ∀ {v b}, BodyL c tail v → tail = CRLF ++ b → c.feat.mime = false → Body b := by
    intro v b h e hm
    cases h with
    | none => cases e
    | some hb =>
      obtain rfl := List.append_cancel_left e
      exact hb hm
  have contents : ∀ {v v'}, BodyL c tail v → BodyL c tail v' → v = v' := by
    intro v v' h h'
    have h1 := afterHeaders_body c h
    rw [afterHeaders_body c h'] at h1
    cases h1
    rfl
  cases h with
  | read h1 h2 h3 h4 h5 =>
    cases h' with
    | read h1' h2' h3' h4' h5' =>
      obtain ⟨rfl, rfl⟩ := lines h1 h1' h2 h2'
      obtain rfl := C81_functional c _ _ _ h3 h3'
      obtain rfl := contents h4 h4'
      exact ((emailFrom_iff hc _ _ _).mpr h5).symm.trans ((emailFrom_iff hc _ _ _).mpr h5')
    | body _ _ _ e hm hb => exact absurd (bodies h4 e hm) hb
    | cut h1' h2' h3' =>
      obtain ⟨rfl, rfl⟩ := lines h1 h1' h2 h2'
      exact absurd h3 (h3' _)
    | other h => exact absurd h1 (h _)
  | body h1 h2 h3 e hm hb =>
    cases h' with
    | read _ _ _ h4 => exact absurd (bodies h4 e hm) hb
    | body => rfl
    | cut h1' h2' h3' =>
      obtain ⟨rfl, rfl⟩ := lines h1 h1' h2 h2'
      exact absurd h3 (h3' _)
    | other h => exact absurd h1 (h _)
  | cut h1 h2 h3 =>
    cases h' with
    | read h1' h2' h3' =>
      obtain ⟨rfl, rfl⟩ := lines h1 h1' h2 h2'
      exact absurd h3' (h3 _)
    | body h1' h2' h3' =>
      obtain ⟨rfl, rfl⟩ := lines h1 h1' h2 h2'
      exact absurd h3' (h3 _)
    | cut => rfl
    | other => rfl
  | other h =>
    cases h' with
    | read h1 => exact absurd h1 (h _)
    | body h1 => exact absurd h1 (h _)
    | cut => rfl
    | other => rfl

/-- What is returned for an input, whatever it is: the header block has no white line and is within the limits. -/
theorem C83_parse (hc : c.feat.compiles) (i head tail : Bytes) (hs : Split i head tail) (hw : ¬ WhiteLine head)
    (hf : Fits c head) (r : Outcome Email) : Email.parse c i = r ↔ Returned c head tail r := by
  have hw' : ∀ fs, HeaderBlock c head fs → ∃ ls, MadeOf head ls := fun _ h =>
    madeOf_lines (lines_headerBlock (strOk_utf8 c) hc.2 _ _ h).1 hw
  constructor
  · rintro rfl
    exact returned_parse c hc hs hw' hf
  · exact returned_unique c hc hf (returned_parse c hc hs hw' hf)

/-- An input is accepted only if it is a message that is read in full. -/
theorem C83_accepted (hc : c.feat.compiles) (i head tail : Bytes) (hs : Split i head tail) (hw : ¬ WhiteLine head)
    (hf : Fits c head) (e : Email) :
    Email.parse c i = .ok e ↔ ∃ ls ts rest fs content, MadeOf head ls ∧ Parted c ls ts rest ∧ EachMeans c rest fs ∧
      BodyL c tail content ∧ NoDuplicate (ts ++ fs) ∧ (∀ name, ¬ Missing c (ts ++ fs) name) ∧ IsEmail c (ts ++ fs) content e := by
  rw [C83_parse c hc i head tail hs hw hf]
  constructor
  · intro h
    cases h with
    | read h1 h2 h3 h4 h5 =>
      cases h5 with
      | email h5 h6 h7 => exact ⟨_, _, _, _, _, h1, h2, h3, h4, h5, h6, h7⟩
  · rintro ⟨ls, ts, rest, fs, content, h1, h2, h3, h4, h5, h6, h7⟩
    exact .read h1 h2 h3 h4 (.email h5 h6 h7)

/-! ### Examples -/

theorem no_whiteLine {w : Bytes}
    (h : ∀ k, k < w.length → CRLF <+: w.drop k → ∀ b ∈ (w.drop (k + 2)).head?, wsp b = false ∧ b ≠ 13) : ¬ WhiteLine w := by
  rintro ⟨y, ws, z, rfl, hws⟩
  have e : y ++ CRLF ++ ws ++ CRLF ++ z = y ++ (CRLF ++ (ws ++ (CRLF ++ z))) := by simp
  rw [e] at h
  have h := h y.length (by simp [CRLF]) (by rw [List.drop_left]; exact List.prefix_append _ _)
  rw [← List.drop_drop, List.drop_left] at h
  cases ws with
  | nil => exact (h 13 rfl).2 rfl
  | cons b ws =>
    have := (h b rfl).1
    rw [hws b (by simp)] at this
    cases this

/-- Without a colon nothing is a message: an error is returned, whatever follows the empty line. -/
example (hc : c.feat.compiles) (b : Bytes) : Email.parse c (b! "hello\r\n\r\n" ++ b) =
    .err (.explicit "TAG ERROR: Headers must be followed by a CRLF sequence.") := by
  have hs : Split (b! "hello\r\n\r\n" ++ b) (b! "hello\r\n") (CRLF ++ b) := by
    refine .later (p := b! "hello") (by simp [CRLF]) ⟨rfl, fun k hk => ?_⟩
    have hk : k < 5 := hk
    rcases (by omega : k = 0 ∨ k = 1 ∨ k = 2 ∨ k = 3 ∨ k = 4) with rfl | rfl | rfl | rfl | rfl <;> simp [OccursAt, CRLF]
  refine (C83_parse c hc _ _ _ hs (no_whiteLine (by decide +kernel)) ⟨Nat.zero_le _, fun _ => by decide⟩ _).mpr (.other ?_)
  rintro ls ⟨e, h⟩
  cases ls with
  | nil => cases e
  | cons l ls =>
    obtain ⟨name, x, t, h⟩ := h l (by simp)
    have : (58 : UInt8) ∈ b! "hello\r\n" := by
      rw [e, h.text]
      simp
    exact absurd this (by decide +kernel)

/-- A message that is accepted is made of header lines that all mean something; a second empty line belongs to the body. -/
example : ∃ ls ts rest fs content, MadeOf (b! "From: a@b\r\nDate: 21 Nov 1997 10:01:22 -0600\r\n") ls ∧
    Parted (Cfg.concrete .full) ls ts rest ∧ EachMeans (Cfg.concrete .full) rest fs ∧
    BodyL (Cfg.concrete .full) (b! "\r\nbody\r\n\r\n") content := by
  have hs : Split (b! "From: a@b\r\nDate: 21 Nov 1997 10:01:22 -0600\r\n\r\nbody\r\n\r\n")
      (b! "From: a@b\r\nDate: 21 Nov 1997 10:01:22 -0600\r\n") (b! "\r\nbody\r\n\r\n") :=
    .later (p := b! "From: a@b\r\nDate: 21 Nov 1997 10:01:22 -0600") (b := b! "body\r\n\r\n") (by decide +kernel)
      ⟨rfl, by unfold OccursAt; decide +kernel⟩
  obtain ⟨e, he⟩ : ∃ e, Email.parse (Cfg.concrete .full)
      (b! "From: a@b\r\nDate: 21 Nov 1997 10:01:22 -0600\r\n\r\nbody\r\n\r\n") = .ok e := isOk_iff.mp (by decide +kernel)
  obtain ⟨ls, ts, rest, fs, content, h1, h2, h3, h4, -⟩ := (C83_accepted (Cfg.concrete .full) ⟨fun _ => rfl, fun _ => rfl⟩ _ _ _ hs
    (no_whiteLine (by decide +kernel)) (small_fits (by decide +kernel)) e).mp he
  exact ⟨ls, ts, rest, fs, content, h1, h2, h3, h4⟩

/-- The restriction to header blocks without white lines is needed: after an address the program accepts one, and such a
header block is not made of header lines. -/
example : (∃ e, Email.parse (Cfg.concrete .full) (b! "From: a@b\r\n \r\nDate: 21 Nov 1997 10:01:22 -0600\r\n") = .ok e) ∧
    WhiteLine (b! "From: a@b\r\n \r\nDate: 21 Nov 1997 10:01:22 -0600\r\n") :=
  ⟨isOk_iff.mp (by decide +kernel), b! "From: a@b", b! " ", _, rfl, by decide +kernel⟩

end EmailParser
