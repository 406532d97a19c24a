import Verif.Proofs.Exact
import Verif.Props.Lines
import Verif.Props.Email
import Verif.Props.Text
import Verif.Props.Part
/-
C74: header lines are read as fields of their kind exactly when they are in the grammar of RFC 5322, and the grammar
decides which messages are accepted.
-/
namespace EmailParser
open Spec

variable (c : Cfg)

theorem recognized_letters {n : Bytes} (h : Recognized c.feat n) : 40 ∉ n ∧ 42 ∉ n := by
  simp only [Recognized, List.mem_cons, List.not_mem_nil, or_false] at h
  rcases h with ⟨-, rfl⟩ | ⟨-, rfl⟩ | ⟨-, rfl⟩ | ⟨-, rfl⟩ | ⟨-, rfl⟩ | ⟨-, rfl⟩ | ⟨-, rfl⟩ | ⟨-, rfl⟩ | ⟨-, rfl⟩ |
    ⟨-, rfl⟩ | ⟨-, rfl⟩ | ⟨-, rfl⟩ | ⟨-, rfl⟩ | ⟨-, rfl | rfl | rfl | rfl | rfl | rfl⟩ <;> decide +kernel

theorem fits_no_abort {name x w l t : Bytes} (h : HeaderText name x w l) (hd : w.count 40 ≤ c.stack)
    (hn : c.feat.mime = true → c.overflowChecks = true → w.count 42 < 256) (ht : Stops wsp t)
    (k : Abort) : field c (l ++ t) ≠ .abort k := by
  intro ha
  by_cases hr : Recognized c.feat (name.map asciiLower)
  · have hl := h.text
    rw [hl] at ha
    have ha := (C10_same_outcome c (name ++ b! ":" ++ w) t [] ht stops_nil).2.1 k ha
    rw [List.append_nil] at ha
    have hs := field_parses (c := c) (name ++ b! ":" ++ w ++ CRLF)
    rw [ha] at hs
    obtain ⟨h40, h42⟩ := recognized_letters c hr
    have n40 : 40 ∉ name := fun hm => h40 (List.mem_map.mpr ⟨40, hm, rfl⟩)
    have n42 : 42 ∉ name := fun hm => h42 (List.mem_map.mpr ⟨42, hm, rfl⟩)
    have c40 : (name ++ b! ":" ++ w ++ CRLF).count 40 = w.count 40 := by
      simp [List.count_append, List.count_eq_zero.mpr n40, CRLF]
    have c42 : (name ++ b! ":" ++ w ++ CRLF).count 42 = w.count 42 := by
      simp [List.count_append, List.count_eq_zero.mpr n42, CRLF]
    rcases hs with ⟨-, hs⟩ | ⟨-, ho, hm, hs⟩
    · rw [c40] at hs
      omega
    · rw [c42] at hs
      have := hn hm ho
      omega
  · obtain ⟨v, hv, -⟩ := C11_unknown c name x w l t h hr ht
    rw [hv] at ha
    cases ha

theorem exact_no_abort {name x w l t : Bytes} (h : HeaderText name x w l) (hp : Plain c name w) (ht : Stops wsp t)
    (k : Abort) : field c (l ++ t) ≠ .abort k :=
  fits_no_abort c h hp.depth (fun hm => (hp.mime hm).2.2) ht k

theorem exact_text (hc : c.feat.compiles) {name x w : Bytes} (hf : Folding x w) (hp : Plain c name w) :
    c.feat.unrecognizedHeaders = false ∨ ¬ b! "=?" <:+: x := by
  by_cases hu : c.feat.unrecognizedHeaders = true
  · have hw := (hp.mime (hc.2 hu)).2.1
    exact .inr fun hx => hw (folding_mark hf hx)
  · exact .inl (by simpa using hu)

/-! ### C74 -/

/-- A header line whose text is any reading of the grammar is read, with the same value up to where the words of
names are divided. -/
theorem C74_read (name x w l t : Bytes) (f : Field) (h : HeaderText name x w l) (hp : Plain c name w)
    (hf : FieldG c l f) (ho : headerOf f = some (name.map asciiLower)) (he : Ends name w) (ht : Stops wsp t) :
    ∃ f', field c (l ++ t) = .ok (t, f') ∧ headerOf f' = some (name.map asciiLower) ∧ joinWords f' = joinWords f := by
  obtain ⟨f', h1, h2, h3⟩ := exact_reads hf h ho hp he ht
  exact ⟨f', h1, h2.trans ho, h3⟩

/-- A header line is read as a field of its kind exactly when it is in the grammar. -/
theorem C74_iff (name x w l t : Bytes) (h : HeaderText name x w l) (hp : Plain c name w) (ht : Stops wsp t) :
    (∃ f, field c (l ++ t) = .ok (t, f) ∧ headerOf f = some (name.map asciiLower)) ↔ InGrammar c name w l := by
  constructor
  · rintro ⟨f, hf, ho⟩
    have hs := field_parses (c := c) (l ++ t)
    rw [hf] at hs
    obtain ⟨l', e, hg⟩ := hs
    rw [← List.append_cancel_right e] at hg
    refine ⟨⟨f, hg, ho⟩, fun hn => ?_⟩
    rw [lineText_eq h] at hf
    rcases field_line (c := c) h.name_ne h.name_chars h.folding ht with ⟨k, h'⟩ | ⟨r, f', h', -, hs, -⟩ | ⟨v, h', -⟩ <;>
      rw [hf] at h' <;> cases h'
    · refine hs ?_
      rcases List.mem_append.mp hn with hn | hn
      · exact .inl hn
      · refine .inr ⟨?_, by simpa using hn⟩
        by_cases hm : c.feat.mime = true
        · have := (hp.mime hm).1
          rw [List.mem_singleton.mp hn] at this
          exact absurd this (by decide)
        · simpa using hm
    · cases ho
  · rintro ⟨⟨f, hf, ho⟩, he⟩
    obtain ⟨f', h1, h2, -⟩ := C74_read c name x w l t f h hp hf ho he ht
    exact ⟨f', h1, h2⟩

/-- Otherwise the name and the text are reported. -/
theorem C74_otherwise (hc : c.feat.compiles) (name x w l t : Bytes) (h : HeaderText name x w l) (hp : Plain c name w)
    (hg : ¬ InGrammar c name w l) (ht : Stops wsp t) :
    field c (l ++ t) = .ok (t, .unknown name (trimEnd x)) := by
  have hno : ∀ r f, field c (l ++ t) = .ok (r, f) → headerOf f = some (name.map asciiLower) → r ≠ t := by
    rintro r f hf ho rfl
    exact hg ((C74_iff c name x w l r h hp ht).mp ⟨f, hf, ho⟩)
  have hx := exact_text c hc h.folding hp
  by_cases hr : Recognized c.feat (name.map asciiLower)
  · have hcut : ¬ CutName c name := by
      rintro ⟨hm, hn⟩
      have := (hp.mime hm).1
      revert this hn
      generalize name.map asciiLower = n
      intro hn
      simp only [List.mem_cons, List.not_mem_nil, or_false] at hn
      rcases hn with rfl | rfl | rfl | rfl | rfl <;> decide +kernel
    have hl := lineText_eq h (t := t)
    rcases field_line (c := c) h.name_ne h.name_chars h.folding ht with ⟨k, h'⟩ | ⟨r, f', h', hw, hs, -, ho⟩ | ⟨v, h', hv⟩ <;>
      rw [← hl] at h'
    · exact absurd h' (exact_no_abort c h hp ht k)
    · exact absurd (hw hcut) (hno _ _ h' ho)
    · rw [h', hv hx]
  · obtain ⟨v, h1, hv⟩ := C11_unknown c name x w l t h hr ht
    rw [h1, hv hx]

/-- So a line denotes what is read from it. -/
theorem C74_denotes (hc : c.feat.compiles) (name x w l t : Bytes) (h : HeaderText name x w l) (hp : Plain c name w)
    (ht : Stops wsp t) : ∃ f, field c (l ++ t) = .ok (t, f) ∧ Denotes c l f := by
  by_cases hg : InGrammar c name w l
  · obtain ⟨f, hf, ho⟩ := (C74_iff c name x w l t h hp ht).mpr hg
    refine ⟨f, hf, .typed h hp ?_ ho hg.2⟩
    have hs := field_parses (c := c) (l ++ t)
    rw [hf] at hs
    obtain ⟨l', e, hf'⟩ := hs
    rwa [← List.append_cancel_right e] at hf'
  · exact ⟨_, C74_otherwise c hc name x w l t h hp hg ht, .text h hp hg⟩

/-- The grammar has one reading, up to where the words of names are divided. -/
theorem C74_unambiguous (name x w l : Bytes) (f f' : Field) (h : HeaderText name x w l) (hp : Plain c name w)
    (he : Ends name w) (hf : FieldG c l f) (hf' : FieldG c l f') (ho : headerOf f = some (name.map asciiLower))
    (ho' : headerOf f' = some (name.map asciiLower)) : joinWords f = joinWords f' := by
  obtain ⟨g, h1, -, h2⟩ := C74_read c name x w l [] f h hp hf ho he stops_nil
  obtain ⟨g', h1', -, h2'⟩ := C74_read c name x w l [] f' h hp hf' ho' he stops_nil
  rw [h1] at h1'
  cases h1'
  rw [← h2, h2']

/-- A line that is not folded. -/
theorem exact_line (name x : Bytes) (h : name ≠ [] ∧ (∀ b ∈ name, ftext b = true) ∧ ∀ b ∈ x, vchar b = true ∨ wsp b = true) :
    HeaderText name x x (name ++ b! ":" ++ x ++ CRLF) :=
  ⟨rfl, h.1, h.2.1, printable_folding x h.2.2⟩

/-- Whether a field of the kind of the header was read. -/
def readAs (n : Bytes) (r : Res Field) : Bool :=
  match r with
  | .ok (r, f) => r == [] && headerOf f == some (n.map asciiLower)
  | _ => false

theorem exact_decides {name x : Bytes} (h : name ≠ [] ∧ (∀ b ∈ name, ftext b = true) ∧ ∀ b ∈ x, vchar b = true ∨ wsp b = true)
    (hp : Plain c name x) :
    InGrammar c name x (name ++ b! ":" ++ x ++ CRLF) ↔
      readAs name (field c (name ++ b! ":" ++ x ++ CRLF)) = true := by
  have := C74_iff c name x x _ [] (exact_line name x h) hp stops_nil
  rw [List.append_nil] at this
  rw [← this]
  unfold readAs
  constructor
  · rintro ⟨f, hf, ho⟩
    rw [hf]
    simp [ho]
  · intro h
    split at h
    · rename_i r f hf
      simp only [Bool.and_eq_true, beq_iff_eq] at h
      exact ⟨f, by rw [hf, h.1], h.2⟩
    · cases h

/-- Reading a line decides whether it is in the grammar: a name with a dot, a mailbox without domain and a space at the
end are not, a comment, a quoted name and an empty group are. -/
example :
    ¬ InGrammar (Cfg.concrete .default) (b! "To") (b! " J. Doe <j@d>") (b! "To: J. Doe <j@d>\r\n") ∧
    ¬ InGrammar (Cfg.concrete .default) (b! "Cc") (b! " a@b, c") (b! "Cc: a@b, c\r\n") ∧
    ¬ InGrammar (Cfg.concrete .default) (b! "Sender") (b! " a@b ") (b! "Sender: a@b \r\n") ∧
    InGrammar (Cfg.concrete .default) (b! "TO") (b! " (to) \"J. Doe\" x<j@d>, g:;") (b! "TO: (to) \"J. Doe\" x<j@d>, g:;\r\n") ∧
    InGrammar (Cfg.concrete .default) (b! "Keywords") (b! " a b,c") (b! "Keywords: a b,c\r\n") := by
  refine ⟨?_, ?_, ?_, ?_, ?_⟩
  · exact fun h => absurd ((exact_decides (Cfg.concrete .default) (x := b! " J. Doe <j@d>") (by decide +kernel) ⟨by decide +kernel, nofun⟩).mp h)
      (by decide +kernel)
  · exact fun h => absurd ((exact_decides (Cfg.concrete .default) (x := b! " a@b, c") (by decide +kernel) ⟨by decide +kernel, nofun⟩).mp h)
      (by decide +kernel)
  · exact fun h => absurd ((exact_decides (Cfg.concrete .default) (x := b! " a@b ") (by decide +kernel) ⟨by decide +kernel, nofun⟩).mp h)
      (by decide +kernel)
  · exact (exact_decides (Cfg.concrete .default) (x := b! " (to) \"J. Doe\" x<j@d>, g:;") (by decide +kernel)
      ⟨by decide +kernel, nofun⟩).mpr (by decide +kernel)
  · exact (exact_decides (Cfg.concrete .default) (x := b! " a b,c") (by decide +kernel)
      ⟨by decide +kernel, nofun⟩).mpr (by decide +kernel)

/-- The words of a name may be divided in several ways: the name in `ab<x@y>` may be one atom or two. -/
example : FieldG (Cfg.concrete .default) (b! "From:ab<x@y>\r\n") (.from [⟨some [b! "a", b! "b"], ⟨b! "x", b! "y"⟩⟩]) ∧
    fieldTexts (field (Cfg.concrete .default) (b! "From:ab<x@y>\r\n")) = some ([], "From", []) := by
  refine ⟨⟨rfl, b! "From:", _, (), rfl, rfl, b! "ab<x@y>", CRLF, _, rfl, ?_, CRLF, [], (), rfl, rfl, rfl, rfl⟩, by decide +kernel⟩
  have atom : ∀ x : Bytes, x ≠ [] → (∀ b ∈ x, atext b = true) → Atom x x := fun x h1 h2 =>
    ⟨[], x, (), rfl, ⟨none, .inl ⟨rfl, rfl⟩⟩, x, [], x, by simp, ⟨rfl, h1, h2⟩, [], [], (), rfl, ⟨none, .inl ⟨rfl, rfl⟩⟩, rfl, rfl⟩
  have dot : ∀ x : Bytes, x ≠ [] → (∀ b ∈ x, atext b = true) → DotAtom false x x := fun x h1 h2 =>
    ⟨[], x, (), rfl, ⟨none, .inl ⟨rfl, rfl⟩⟩, x, [], x, by simp,
      ⟨x, [], x, by simp, ⟨rfl, h1, h2⟩, [], [], [], rfl, .nil, rfl, by simp⟩, [], [], (), rfl, ⟨none, .inl ⟨rfl, rfl⟩⟩, rfl, rfl⟩
  refine ⟨b! "ab<x@y>", [], _, by simp, .inl ⟨b! "ab", b! "<x@y>", some [b! "a", b! "b"], rfl, .inr ⟨_, rfl, ?_⟩, ?_⟩,
    [], [], [], rfl, .nil, rfl, rfl⟩
  · exact ⟨b! "a", b! "b", b! "a", rfl, show Word _ _ from .inl (atom _ (by decide) (by decide +kernel)),
      b! "b", [], [b! "b"], rfl, .cons (w₂ := []) (show Word _ _ from .inl (atom (b! "b") (by decide) (by decide +kernel))) .nil,
      rfl, rfl⟩
  · refine ⟨b! "<x@y>", [], ⟨b! "x", b! "y"⟩, by simp, ?_, rfl, rfl⟩
    refine ⟨[], _, (), rfl, ⟨none, .inl ⟨rfl, rfl⟩⟩, b! "<", b! "x@y>", (), rfl, rfl, b! "x@y", b! ">", _, rfl, ?_,
      b! ">", [], (), rfl, rfl, [], [], (), rfl, ⟨none, .inl ⟨rfl, rfl⟩⟩, rfl, rfl⟩
    exact ⟨b! "x", b! "@y", b! "x", rfl, .inl (dot _ (by decide) (by decide +kernel)), b! "@", b! "y", (), rfl, rfl,
      b! "y", [], b! "y", rfl, .inl (dot _ (by decide) (by decide +kernel)), rfl, rfl⟩

/-! ### Messages -/

theorem denotes_field (hc : c.feat.compiles) {l : Bytes} {f : Field} (h : Denotes c l f) :
    ∃ f', field c l = .ok ([], f') ∧ joinWords f' = joinWords f := by
  cases h with
  | typed h hp hf ho he =>
    obtain ⟨f', h1, -, h2⟩ := C74_read c _ _ _ l [] f h hp hf ho he stops_nil
    rw [List.append_nil] at h1
    exact ⟨f', h1, h2⟩
  | text h hp hg =>
    have := C74_otherwise c hc _ _ _ l [] h hp hg stops_nil
    rw [List.append_nil] at this
    exact ⟨_, this, rfl⟩

/-- The meaning of a line is the field that is read from it. -/
def ReadsAs (L : Bytes → Field → Prop) : Prop :=
  ∀ l f, L l f → ∃ f', field c l = .ok ([], f') ∧ joinWords f' = joinWords f

theorem denotes_lines {L : Bytes → Field → Prop} (hL : ReadsAs c L) {s : Bytes} {fs : List Field} (h : LinesL L s fs) :
    ∃ ls fs', s = ls.flatten ∧ LinesOf c ls fs' ∧ fs'.map joinWords = fs.map joinWords := by
  induction h with
  | nil => exact ⟨[], [], rfl, .nil, rfl⟩
  | cons hl _ ih =>
    obtain ⟨ls, fs', rfl, h1, h2⟩ := ih
    obtain ⟨f', h3, h4⟩ := hL _ _ hl
    exact ⟨_ :: ls, f' :: fs', rfl, .cons h3 h1, by simp [h2, h4]⟩

theorem fields_denoted (hc : c.feat.compiles) {L : Bytes → Field → Prop} (hL : ReadsAs c L) {s tail : Bytes}
    {fs : List Field} (h : LinesL L s fs)
    (ht : tail = [] ∨ CRLF <+: tail) (hn : c.feat.trace = true → NoTraceName (s ++ tail)) :
    ∃ fs', fields c (s ++ tail) = .ok (tail, fs') ∧ fs'.map joinWords = fs.map joinWords := by
  obtain ⟨ls, fs', rfl, h1, h2⟩ := denotes_lines c hL h
  refine ⟨fs', ?_, h2⟩
  by_cases htr : c.feat.trace = true
  · have h0 : traces c [] = .ok ([], []) := by
      unfold traces
      rw [if_pos htr]
      rfl
    simpa using C10_block c hc [] [] ls fs' tail h0 h1 ht (hn htr)
  · have h0 : traces c (ls.flatten ++ tail) = .ok (ls.flatten ++ tail, []) := by
      unfold traces
      rw [if_neg htr]
    unfold fields
    rw [h0, ok_bind]
    dsimp only
    rw [C10_lines c ls fs' tail h1 ht]
    rfl

theorem onceName_join (f : Field) : onceName (joinWords f) = onceName f := by cases f <;> rfl
theorem dateOf_join (f : Field) : dateOf (joinWords f) = dateOf f := by cases f <;> rfl
theorem senderOf_join (f : Field) : senderOf (joinWords f) = (senderOf f).map joinBox := by cases f <;> rfl
theorem fromOf_join (f : Field) : fromOf (joinWords f) = (fromOf f).map (·.map joinBox) := by cases f <;> rfl

theorem noDuplicate_join (fs : List Field) : NoDuplicate (fs.map joinWords) ↔ NoDuplicate fs := by
  unfold NoDuplicate
  rw [List.filterMap_map, show onceName ∘ joinWords = onceName from funext onceName_join]

theorem missing_join (fs : List Field) (name : String) : Missing c (fs.map joinWords) name ↔ Missing c fs name := by
  unfold Missing
  simp only [List.forall_mem_map, dateOf_join, senderOf_join, fromOf_join, Option.map_eq_none_iff, Option.map_eq_some_iff]
  refine or_congr Iff.rfl (or_congr Iff.rfl (and_congr Iff.rfl (and_congr Iff.rfl (and_congr Iff.rfl ?_))))
  constructor
  · intro h f hf authors ha
    have := h f hf _ ⟨authors, ha, rfl⟩
    rwa [List.length_map] at this
  · rintro h f hf _ ⟨authors, ha, rfl⟩
    rw [List.length_map]
    exact h f hf authors ha

theorem afterHeaders_body {tail : Bytes} {content : Option Bytes} (hb : BodyL c tail content) :
    afterHeaders c tail = .ok content := by
  have ha := afterHeaders_spec (c := c) tail
  cases hx : afterHeaders c tail with
  | abort k => rw [hx] at ha; exact ha.elim
  | err e =>
    rw [hx] at ha
    cases hb with
    | none =>
      rcases ha with ⟨-, h, -⟩ | ⟨-, -, w, h, -⟩
      · exact absurd rfl h
      · cases h
    | @some b hb =>
      rcases ha with ⟨-, -, h⟩ | ⟨hm, -, w, h, hw⟩
      · exact absurd (List.prefix_append _ _) h
      · rw [List.append_cancel_left h] at hb
        exact absurd (hb hm) hw
  | ok o =>
    rw [hx] at ha
    cases hb with
    | none =>
      cases o with
      | none => rfl
      | some w => exact absurd ha.1 (by simp)
    | @some b hb =>
      cases o with
      | none => cases ha
      | some w => rw [List.append_cancel_left ha.1]

theorem denotes_encoding (hm : c.feat.mime = true) {l : Bytes} {f : Field} (h : Denotes c l f) : encodingOf f = none := by
  cases h with
  | text => rfl
  | typed _ hp _ ho _ =>
    cases f with
    | contentTransferEncoding e =>
      have := (hp.mime hm).1
      rw [← Option.some.inj ho] at this
      exact absurd this (by decide)
    | _ => rfl

theorem denotes_encodings (hm : c.feat.mime = true) {s : Bytes} {fs : List Field} (h : LinesL (Denotes c) s fs) :
    ∀ f ∈ fs, encodingOf f = none := by
  induction h with
  | nil => simp
  | cons hl _ ih =>
    intro f hf
    rcases List.mem_cons.mp hf with rfl | hf
    · exact denotes_encoding c hm hl
    · exact ih f hf

theorem encodingOf_join (f : Field) : encodingOf (joinWords f) = encodingOf f := by cases f <;> rfl

theorem firstDuplicate_not {fs : List Field} {name : String} (h : FirstDuplicate fs name) : ¬ NoDuplicate fs := by
  obtain ⟨before, f, after, rfl, -, hf, g, hg, hgn⟩ := h
  unfold NoDuplicate
  rw [List.filterMap_append, List.filterMap_cons_some hf]
  intro h
  exact (List.nodup_append.mp h).2.2 name (List.mem_filterMap.mpr ⟨g, hg, hgn⟩) name (by simp) rfl

theorem fields_message (hc : c.feat.compiles) {i tail : Bytes} {fs : List Field} {content : Option Bytes}
    (h : ∃ fs', fields c i = .ok (tail, fs') ∧ fs'.map joinWords = fs.map joinWords) (hb : BodyL c tail content) :
    ∃ fs', fs'.map joinWords = fs.map joinWords ∧ EmailResult c fs' content (Email.parse c i) := by
  obtain ⟨fs', h1, h2⟩ := h
  refine ⟨fs', h2, (emailFrom_iff hc fs' content _).mp ?_⟩
  rw [email_parse_eq, parseMessage_eq, h1]
  show emailFrom c fs' content = ((afterHeaders c tail).bind _).bind _
  rw [afterHeaders_body c hb]
  rfl

theorem denoted_message (hc : c.feat.compiles) {L : Bytes → Field → Prop} (hL : ReadsAs c L) {s tail : Bytes}
    {fs : List Field} {content : Option Bytes}
    (h : LinesL L s fs) (hb : BodyL c tail content) (hn : c.feat.trace = true → NoTraceName (s ++ tail)) :
    ∃ fs', fs'.map joinWords = fs.map joinWords ∧ EmailResult c fs' content (Email.parse c (s ++ tail)) :=
  fields_message c hc (fields_denoted c hc hL h (by
    cases hb with
    | none => exact .inl rfl
    | some => exact .inr (List.prefix_append _ _)) hn) hb

theorem encodings_join (fs : List Field) : (fs.map joinWords).findSome? encodingOf = fs.findSome? encodingOf := by
  rw [List.findSome?_map]
  congr 1
  exact funext encodingOf_join

theorem fields_accepted (hc : c.feat.compiles) {i b : Bytes} {fs : List Field}
    (h : ∃ fs', fields c i = .ok (CRLF ++ b, fs') ∧ fs'.map joinWords = fs.map joinWords) :
    (∃ e, Email.parse c i = .ok e) ↔
      (c.feat.mime = false → Body b) ∧ NoDuplicate fs ∧ (∀ name, ¬ Missing c fs name) ∧
        (c.feat.mime = true → ∃ v, Decoded (fs.findSome? encodingOf) b v) := by
  have key : ∀ fs' : List Field, fs'.map joinWords = fs.map joinWords →
      ((NoDuplicate fs' ↔ NoDuplicate fs) ∧ (∀ name, Missing c fs' name ↔ Missing c fs name) ∧
        fs'.findSome? encodingOf = fs.findSome? encodingOf) := fun fs' e =>
    ⟨by rw [← noDuplicate_join fs', e, noDuplicate_join], fun name => by
      rw [← missing_join c fs', e, missing_join], by rw [← encodings_join fs', e, encodings_join]⟩
  constructor
  · rintro ⟨e, he⟩
    obtain ⟨fs', h1, h2⟩ := h
    have hk := key fs' h2
    rw [email_parse_eq, parseMessage_eq, h1] at he
    have he' : ((afterHeaders c (CRLF ++ b)).bind fun o => Outcome.ok (fs', o)).bind
        (fun r => emailFrom c r.1 r.2) = .ok e := he
    have ha := afterHeaders_spec (c := c) (CRLF ++ b)
    cases hx : afterHeaders c (CRLF ++ b) with
    | abort k => rw [hx] at ha; exact ha.elim
    | err x => rw [hx] at he'; cases he'
    | ok o =>
      rw [hx] at ha he'
      cases o with
      | none => cases ha
      | some w =>
        obtain rfl : w = b := (List.append_cancel_left ha.1).symm
        have hr := (emailFrom_iff hc fs' _ _).mp he'
        cases hr with
        | email hd hm hi =>
          refine ⟨ha.2, hk.1.mp hd, fun name hm' => hm name ((hk.2.1 name).mpr hm'), fun hmi => ?_⟩
          obtain ⟨raw, -, -, -, -, -, -, -, hv⟩ := hi.entity hmi
          rw [← hk.2.2]
          exact ⟨raw.value, (decodeValue_iff _ _ _).mp ((decodeValue_eq _ _).trans (hv w rfl))⟩
  · rintro ⟨hb, hd, hm, hv⟩
    obtain ⟨fs', h1, h2⟩ := fields_message c hc h (.some hb)
    have hk := key fs' h1
    generalize Email.parse c i = r at h2
    cases h2 with
    | duplicate h => exact absurd (hk.1.mpr hd) (firstDuplicate_not h)
    | missing _ h _ => exact absurd ((hk.2.1 _).mp h) (hm _)
    | undecodable _ _ hmi hcb hdec =>
      cases hcb
      obtain ⟨v, hv⟩ := hv hmi
      rw [hk.2.2, ← decodeValue_eq, (decodeValue_iff _ _ _).mpr hv] at hdec
      cases hdec
    | email _ _ _ => exact ⟨_, rfl⟩

theorem denoted_accepted (hc : c.feat.compiles) {L : Bytes → Field → Prop} (hL : ReadsAs c L) {s b : Bytes}
    {fs : List Field} (h : LinesL L s fs) (hn : c.feat.trace = true → NoTraceName (s ++ (CRLF ++ b))) :
    (∃ e, Email.parse c (s ++ (CRLF ++ b)) = .ok e) ↔
      (c.feat.mime = false → Body b) ∧ NoDuplicate fs ∧ (∀ name, ¬ Missing c fs name) ∧
        (c.feat.mime = true → ∃ v, Decoded (fs.findSome? encodingOf) b v) :=
  fields_accepted c hc (fields_denoted c hc hL h (.inr (List.prefix_append CRLF b)) hn)

/-- The result for a message: if the body is acceptable, what must be returned for the fields that the header lines
denote, up to where the words of names are divided. -/
theorem C74_message (hc : c.feat.compiles) (s tail : Bytes) (fs : List Field) (content : Option Bytes)
    (h : LinesL (Denotes c) s fs) (hb : BodyL c tail content) (hn : c.feat.trace = true → NoTraceName (s ++ tail)) :
    ∃ fs', fs'.map joinWords = fs.map joinWords ∧ EmailResult c fs' content (Email.parse c (s ++ tail)) :=
  denoted_message c hc (fun _ _ => denotes_field c hc) h hb hn

/-- Which messages are accepted: those with an acceptable body and header lines among which those in the grammar do
not repeat a header that may occur once only, and include the required ones. -/
theorem C74_accepted (hc : c.feat.compiles) (s b : Bytes) (fs : List Field)
    (h : LinesL (Denotes c) s fs) (hn : c.feat.trace = true → NoTraceName (s ++ (CRLF ++ b))) :
    (∃ e, Email.parse c (s ++ (CRLF ++ b)) = .ok e) ↔
      (c.feat.mime = false → Body b) ∧ NoDuplicate fs ∧ ∀ name, ¬ Missing c fs name := by
  rw [denoted_accepted c hc (fun _ _ => denotes_field c hc) h hn]
  refine and_congr Iff.rfl (and_congr Iff.rfl (and_iff_left fun hm => ?_))
  rw [show fs.findSome? encodingOf = none from List.findSome?_eq_none_iff.mpr (denotes_encodings c hm h)]
  exact ⟨b, rfl⟩

/-- A message with a line that is not in the grammar.  As it is accepted, the other lines have the required fields. -/
example : ∃ fs, LinesL (Denotes (Cfg.concrete .default))
      (b! "From: ab<x@y>\r\nCc: a@b, c\r\nDate: 21 Nov 1997 10:01:22 -0600\r\n") fs ∧ fs.length = 3 ∧
    NoDuplicate fs ∧ ∀ name, ¬ Missing (Cfg.concrete .default) fs name := by
  have hc : (Cfg.concrete .default).feat.compiles := ⟨fun _ => rfl, nofun⟩
  obtain ⟨f1, -, h1⟩ := C74_denotes (Cfg.concrete .default) hc (b! "From") (b! " ab<x@y>") _ _ [] (exact_line _ _ (by decide +kernel))
    ⟨by decide +kernel, nofun⟩ stops_nil
  obtain ⟨f2, -, h2⟩ := C74_denotes (Cfg.concrete .default) hc (b! "Cc") (b! " a@b, c") _ _ [] (exact_line _ _ (by decide +kernel))
    ⟨by decide +kernel, nofun⟩ stops_nil
  obtain ⟨f3, -, h3⟩ := C74_denotes (Cfg.concrete .default) hc (b! "Date") (b! " 21 Nov 1997 10:01:22 -0600") _ _ []
    (exact_line _ _ (by decide +kernel)) ⟨by decide +kernel, nofun⟩ stops_nil
  have h : LinesL (Denotes (Cfg.concrete .default))
      (b! "From: ab<x@y>\r\nCc: a@b, c\r\nDate: 21 Nov 1997 10:01:22 -0600\r\n") [f1, f2, f3] :=
    .cons h1 (.cons h2 (.cons h3 .nil))
  have hok : isOk (Email.parse (Cfg.concrete .default)
      (b! "From: ab<x@y>\r\nCc: a@b, c\r\nDate: 21 Nov 1997 10:01:22 -0600\r\n" ++ (CRLF ++ b! "body"))) = true := by
    decide +kernel
  have := (C74_accepted _ hc _ (b! "body") _ h fun _ => by unfold NoTraceName; decide +kernel).mp (by
    cases hx : Email.parse (Cfg.concrete .default)
      (b! "From: ab<x@y>\r\nCc: a@b, c\r\nDate: 21 Nov 1997 10:01:22 -0600\r\n" ++ (CRLF ++ b! "body")) with
    | ok e => exact ⟨e, rfl⟩
    | err e => rw [hx] at hok; cases hok
    | abort k => rw [hx] at hok; cases hok)
  exact ⟨_, h, rfl, this.2.1, this.2.2⟩

end EmailParser
