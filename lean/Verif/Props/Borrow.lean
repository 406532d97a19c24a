import Verif.Proofs.Borrow
import Verif.Model.Concrete
/-
C58: which strings are slices of the input.
-/
namespace EmailParser
open Spec

/-! ### The same contents as the rest of the model -/

/-- The parsers that say where their strings are find the same contents, the same remaining input and the same errors as
the parsers of the rest of the model, wherever the input is. -/
theorem C58_contents (c : Cfg) (p : Place) (i : Bytes) (h : At p i) :
    contents p.memory (cowFws p i) = fws i ∧
    contents p.memory (cowQuotedString c p i) = quotedString c i ∧
    contents p.memory (cowAtom c p i) = atom c i ∧
    contents p.memory (cowDotAtom c p i) = dotAtom c i ∧
    contents p.memory (cowWord c p i) = word c i ∧
    mapResult (List.map (CowStr.content p.memory)) (cowPhrase c p i) = phrase c i ∧
    contents p.memory (cowUnstructured p i) = unstructured i ∧
    contents p.memory (cowMimeUnstructured c p i) = mimeUnstructured c i ∧
    contents p.memory (cowDomainLiteral c p i) = domainLiteral c i ∧
    mapResult (fun a => ⟨a.1.content p.memory, a.2.content p.memory⟩) (cowAddrSpec c p i) = addrSpec c i ∧
    mapResult (fun a => (a.1.content p.memory, a.2.content p.memory)) (cowMessageId c p i) = messageId c i := by
  refine ⟨?_, ?_, ?_, ?_, ?_, ?_, ?_, ?_, ?_, ?_, ?_⟩
  · exact (cowFws_agree (q := true) h).mapResult fun _ _ _ hs => (hs.inside h).1
  · exact (cowQuotedString_inside h).mapResult fun _ _ _ hs => hs.1
  · exact (cowAtom_agree h).mapResult fun _ _ _ hs => (hs.inside h).1
  · exact (cowDotAtom_agree h).mapResult fun _ _ _ hs => (hs.inside h).1
  · exact (cowWord_inside h).mapResult fun _ _ _ hs => hs.1
  · exact (cowPhrase_inside h).mapResult fun _ _ _ hs => hs.1
  · exact (cowUnstructured_agree h).mapResult fun _ _ _ hs => (hs.inside h).1
  · exact (cowMimeUnstructured_inside h).mapResult fun _ _ _ hs => hs.1
  · exact (cowDomainLiteral_inside h).mapResult fun _ _ _ hs => hs.1
  · exact (cowAddrSpec_inside h).mapResult fun _ v s hs => by rw [hs.1.1, hs.2.1]
  · exact (cowMessageId_inside h).mapResult fun _ v s hs => by rw [hs.1.1, hs.2.1]

/-! ### No reference outside of the input -/

/-- Every borrowed string points into the input that the parser was given. -/
theorem C58_inside (c : Cfg) (p : Place) (i : Bytes) (h : At p i) :
    (∀ r s, cowFws p i = .ok (r, s) → Within (p.addr i) p.stop s) ∧
    (∀ r s, cowPhrase c p i = .ok (r, s) → ∀ w ∈ s, Within (p.addr i) p.stop w) ∧
    (∀ r s, cowUnstructured p i = .ok (r, s) → Within (p.addr i) p.stop s) ∧
    (∀ r s, cowMimeUnstructured c p i = .ok (r, s) → Within (p.addr i) p.stop s) ∧
    (∀ r l d, cowAddrSpec c p i = .ok (r, (l, d)) → Within (p.addr i) p.stop l ∧ Within (p.addr i) p.stop d) ∧
    (∀ r l d, cowMessageId c p i = .ok (r, (l, d)) → Within (p.addr i) p.stop l ∧ Within (p.addr i) p.stop d) := by
  refine ⟨fun r s hs => ?_, fun r s hs => ?_, fun r s hs => ?_, fun r s hs => ?_, fun r l d hs => ?_, fun r l d hs => ?_⟩
  · obtain ⟨v, -, hv⟩ := (cowFws_agree (q := true) h).left hs
    exact (hv.inside h).2
  · obtain ⟨v, -, hv⟩ := (cowPhrase_inside h).left hs
    exact hv.2
  · obtain ⟨v, -, hv⟩ := (cowUnstructured_agree h).left hs
    exact (hv.inside h).2
  · obtain ⟨v, -, hv⟩ := (cowMimeUnstructured_inside h).left hs
    exact hv.2
  · obtain ⟨v, -, hv⟩ := (cowAddrSpec_inside h).left hs
    exact ⟨hv.1.2, hv.2.2⟩
  · obtain ⟨v, -, hv⟩ := (cowMessageId_inside h).left hs
    exact ⟨hv.1.2, hv.2.2⟩

/-! ### Atoms are never copied -/

/-- An atom or a dot-atom is the slice of the input between the gaps. -/
theorem C58_atoms (c : Cfg) (p : Place) (i r : Bytes) (s : CowStr) (h : At p i)
    (hs : cowAtom c p i = .ok (r, s) ∨ cowDotAtom c p i = .ok (r, s)) :
    ∃ pre v post, i = pre ++ (v ++ (post ++ r)) ∧ OptCfws pre () ∧ OptCfws post () ∧ v ≠ [] ∧
      s = .borrowed (p.addr (v ++ (post ++ r))) v.length := by
  rcases hs with hs | hs
  · obtain ⟨v, -, pre, post, hv⟩ := (cowAtom_agree h).left hs
    exact ⟨pre, v, post, hv⟩
  · obtain ⟨v, -, pre, post, hv⟩ := (cowDotAtom_agree h).left hs
    exact ⟨pre, v, post, hv⟩

/-- Both parts of a message identifier are slices of the input around the `@`. -/
theorem C58_message_id (c : Cfg) (p : Place) (i r : Bytes) (s : CowStr × CowStr) (h : At p i)
    (hs : cowMessageId c p i = .ok (r, s)) :
    ∃ pre left bracket right post, i = pre ++ (left ++ (b! "@" ++ (bracket ++ (right ++ (post ++ r))))) ∧
      (bracket = [] ∨ bracket = b! "[") ∧
      s.1 = .borrowed (p.addr (left ++ (b! "@" ++ (bracket ++ (right ++ (post ++ r)))))) left.length ∧
      s.2 = .borrowed (p.addr (right ++ (post ++ r))) right.length := by
  obtain ⟨v, -, pre, mid, rfl, h1, pre', post, rfl, h2, h3⟩ := (cowMessageId_agree h).left hs
  exact ⟨pre, v.1, pre', v.2, post, rfl, h2, h1, h3⟩

/-! ### Texts are copied only if something is left out -/

theorem built_broken {q : Bool} {p : Place} {raw post v : Bytes} {s : CowStr} (hi : At p (raw ++ post))
    (h : Built q p (p.addr post) raw v s) :
    (Broken q raw v → s = .owned v) ∧
    (¬ Broken q raw v → v ≠ [] → s = .borrowed (p.addr (raw ++ post) + lead q raw) v.length) ∧
    (v = [] → ¬ Broken q raw v → ∃ a, s = .borrowed a 0) := by
  have hl := h.length
  have ha := hi.addr
  unfold Broken
  cases h with
  | empty h1 h2 =>
    subst h1; subst h2
    exact ⟨fun h => absurd h (by simp), fun _ h => absurd rfl h, fun _ _ => ⟨_, rfl⟩⟩
  | @borrowed a hv _ hp hr hle =>
    have := congrArg List.length hr
    simp only [List.length_append, List.length_take] at this
    refine ⟨fun h => by omega, fun _ _ => ?_, fun h => absurd h hv⟩
    rw [show p.addr (raw ++ post) + lead q raw = a by omega]
  | owned h => exact ⟨fun _ => rfl, fun h' => absurd h h', fun _ h' => absurd h h'⟩

/-- A quoted string is copied exactly if a line break or the backslash of an escaped character has to be left out after its
beginning; otherwise it is the slice of the input between the quotes, after what is left out at the beginning. -/
theorem C58_quoted (c : Cfg) (p : Place) (i r : Bytes) (s : CowStr) (h : At p i)
    (hs : cowQuotedString c p i = .ok (r, s)) :
    ∃ pre raw post v, i = pre ++ (b! "\"" ++ (raw ++ (b! "\"" ++ (post ++ r)))) ∧ OptCfws pre () ∧ OptCfws post () ∧
      QuotedText raw v ∧ (Broken true raw v → s = .owned v) ∧
      (¬ Broken true raw v → v ≠ [] →
        s = .borrowed (p.addr (raw ++ (b! "\"" ++ (post ++ r))) + lead true raw) v.length) ∧
      (v = [] → ¬ Broken true raw v → ∃ a, s = .borrowed a 0) := by
  obtain ⟨v, -, pre, raw, post, rfl, h1, h2, h3, h4⟩ := (cowQuotedString_agree h).left hs
  exact ⟨pre, raw, post, v, rfl, h1, h2, h3, built_broken h.right.right h4⟩

/-- Unstructured text is copied exactly if it is folded after its beginning; otherwise it is the slice of the input before
the trailing white space.  With MIME this is so for every text without `=?`. -/
theorem C58_text (c : Cfg) (p : Place) (i r : Bytes) (s : CowStr) (h : At p i)
    (hs : cowUnstructured p i = .ok (r, s) ∨ (¬ b! "=?" <:+: i ∧ cowMimeUnstructured c p i = .ok (r, s))) :
    ∃ raw white v, i = raw ++ (white ++ r) ∧ PlainText raw v ∧ (∀ b ∈ white, wsp b = true) ∧
      (Broken false raw v → s = .owned v) ∧
      (¬ Broken false raw v → v ≠ [] → s = .borrowed (p.addr i + lead false raw) v.length) ∧
      (v = [] → ¬ Broken false raw v → ∃ a, s = .borrowed a 0) := by
  have hs : cowUnstructured p i = .ok (r, s) := by
    rcases hs with hs | ⟨hn, hs⟩
    · exact hs
    · rwa [cowMimeUnstructured_plain h hn] at hs
  obtain ⟨v, -, raw, white, rfl, h1, h2, h3⟩ := (cowUnstructured_agree h).left hs
  exact ⟨raw, white, v, rfl, h1, h2, built_broken h h3⟩

/-- The literal of a domain is copied exactly if its text, without white space, is not a part of the text between the
brackets; otherwise it is such a part. -/
theorem C58_domain (c : Cfg) (p : Place) (i r : Bytes) (s : CowStr) (h : At p i)
    (hs : cowDomainLiteral c p i = .ok (r, s)) :
    ∃ pre raw post v, i = pre ++ (b! "[" ++ (raw ++ (b! "]" ++ (post ++ r)))) ∧ OptCfws pre () ∧ OptCfws post () ∧
      DomainText raw v ∧ (¬ v <:+: raw → s = .owned v) ∧
      (v <:+: raw → v ≠ [] → ∃ before after, raw = before ++ (v ++ after) ∧ (∀ b ∈ before, dtext b = false) ∧
        s = .borrowed (p.addr (v ++ (after ++ (b! "]" ++ (post ++ r))))) v.length) := by
  obtain ⟨v, -, pre, raw, gap, post, rfl, h1, h2, h3, h4, h5⟩ := (cowDomainLiteral_agree h).left hs
  have hi := h.right.right
  have hf := domainText_filter h3
  have hinf := h5.infix hf
  refine ⟨pre, raw ++ gap, post, v, by simp, h1, h2, h3, fun hn => ?_, fun hn hv => ?_⟩
  · have ho := hinf.mpr hn
    cases h5 with
    | empty => exact ho.elim
    | borrowed => exact ho.elim
    | owned => rfl
  · cases h5 with
    | empty _ hv' => exact absurd hv' hv
    | @borrowed a gap' _ _ hu hg ha =>
      refine ⟨gap', gap, by rw [hu]; simp, hg, ?_⟩
      rw [hu, List.append_assoc] at hi
      have := hi.right.addr
      rw [show a = p.addr (v ++ (gap ++ (b! "]" ++ (post ++ r)))) by omega]
    | owned => exact absurd hn (hinf.mp trivial)

/-! ### Examples -/

/-- A memory that contains `text` from the address 1000 on. -/
def placeOf (text : Bytes) : Place where
  memory a := text.getD (a - 1000) 0
  stop := 1000 + text.length
  empty := 7

theorem placeOf_at (text : Bytes) : At (placeOf text) text := by
  refine ⟨by simp [placeOf], ?_⟩
  have e : (placeOf text).addr text = 1000 := by simp [Place.addr, placeOf]
  rw [e]
  unfold Memory.read placeOf
  refine List.ext_getElem (by simp) fun n h1 h2 => ?_
  simp [List.getD_eq_getElem?_getD, h2]

/-- What a parser says of the strings of a text, as ranges of positions in it (or copies). -/
def strings (parser : Place → Bytes → Res CowStr) (text : Bytes) : Option (Nat × Nat ⊕ Bytes) :=
  match parser (placeOf text) text with
  | .ok (_, .borrowed a l) => some (.inl (a - 1000, l))
  | .ok (_, .owned v) => some (.inr v)
  | _ => none

/-- The first two tests of ownership are those of `src/parsing/quoted_string.rs:120-129`; in the other texts something is
left out at the beginning only, the text is folded, the text is empty. -/
example (c : Cfg) (hc : c = Cfg.concrete .full) :
    strings (cowQuotedString c) (b! "\r\n  \"This\\ is\\ a\\ test\"  ") = some (.inr (b! "This is a test")) ∧
    strings (cowQuotedString c) (b! "\r\n  \"hey\"  ") = some (.inl (5, 3)) ∧
    strings (cowQuotedString c) (b! "\"\\hey\"") = some (.inl (2, 3)) ∧
    strings (cowQuotedString c) (b! "\"\r\n hey\"") = some (.inl (3, 4)) ∧
    strings (cowQuotedString c) (b! "\" hey\r\n you\"") = some (.inr (b! " hey you")) ∧
    strings (cowQuotedString c) (b! "\"he\\y\"") = some (.inr (b! "hey")) := by
  subst hc
  decide +kernel

/-- Text with and without folding, white space at the end, and a backslash, which has no meaning here. -/
example :
    strings cowUnstructured (b! " How are you?  \r\n") = some (.inl (0, 13)) ∧
    strings cowUnstructured (b! "\r\n How are you?\r\n") = some (.inl (2, 13)) ∧
    strings cowUnstructured (b! "How\r\n are you?\r\n") = some (.inr (b! "How are you?")) ∧
    strings cowUnstructured (b! "\\o/\r\n") = some (.inl (0, 3)) := by
  decide +kernel

/-- White space at the edges of a domain literal is left out without copying. -/
example (c : Cfg) (hc : c = Cfg.concrete .full) :
    strings (cowDomainLiteral c) (b! "(a) [ 127.0.0.1 ] ") = some (.inl (6, 9)) ∧
    strings (cowDomainLiteral c) (b! "[127. 0.0.1]") = some (.inr (b! "127.0.0.1")) ∧
    strings (cowDotAtom c) (b! " mail.example.org (b)") = some (.inl (1, 16)) := by
  subst hc
  decide +kernel

/-- With encoded words text is copied; the hypothesis about `=?` in `C58_text` is needed. -/
example : strings (cowMimeUnstructured (Cfg.concrete .full)) (b! "=?utf-8?q?hey?=") = some (.inr (b! "hey")) := by
  decide +kernel

example : cowMessageId (Cfg.concrete .full) (placeOf (b! " <a.b@[c]>")) (b! " <a.b@[c]>") =
    .ok ([], (.borrowed 1002 3, .borrowed 1007 1)) := by decide +kernel

end EmailParser
