import Verif.Spec.Strings
import Verif.Spec.Entity
import Verif.Proofs.Entity
import Verif.Proofs.Email
/-
Which texts are derived from the grammars, and which strings occur in their values.
-/
namespace EmailParser
open Spec Gram

variable {α β : Type} {c : Cfg}

/-! ### Folded lines -/

theorem Spec.Folded.append {u v : Bytes} (hu : Folded u) (hv : Folded v) : Folded (u ++ v) := by
  induction hu with
  | nil => exact hv
  | char h _ ih => exact .char h ih
  | fold h _ ih => exact .fold h ih

theorem folded_of {w : Bytes} (h : ∀ x ∈ w, vchar x = true ∨ wsp x = true) : Folded w := by
  induction w with
  | nil => exact .nil
  | cons x w ih => exact .char (h x (by simp)) (ih fun y hy => h y (by simp [hy]))

theorem folded_flatten {ws : List Bytes} (h : ∀ w ∈ ws, Folded w) : Folded ws.flatten := by
  induction ws with
  | nil => exact .nil
  | cons w ws ih => exact (h w (by simp)).append (ih fun y hy => h y (by simp [hy]))

/-! ### Strings -/

/-- A property of strings that the strings of a message can have. -/
structure StrOk (c : Cfg) (V : Bytes → Prop) : Prop where
  append : ∀ {u v}, V u → V v → V (u ++ v)
  printable : ∀ {s : Bytes}, (∀ x ∈ s, vchar x = true ∨ wsp x = true) → V s
  encoded : c.feat.mime = true → ∀ {name bytes text}, CharsetText c name bytes text → V text

namespace StrOk

variable {V : Bytes → Prop} (hV : StrOk c V)
include hV

theorem nil : V [] := hV.printable (by simp)

theorem flatten {ws : List Bytes} (h : ∀ w ∈ ws, V w) : V ws.flatten := by
  induction ws with
  | nil => exact hV.nil
  | cons w ws ih => exact hV.append (h w (by simp)) (ih fun y hy => h y (by simp [hy]))

end StrOk

/-- The texts of `G` are folded lines, their values satisfy `P`. -/
def Ens (P : α → Prop) (G : Gram α) : Prop := ∀ w v, G w v → Folded w ∧ P v

section
variable {P : α → Prop} {Q : β → Prop}

theorem ens_pure {a : α} (h : P a) : Ens P (pure a : Gram α) := by
  rintro w v ⟨rfl, rfl⟩; exact ⟨.nil, h⟩

theorem ens_bind {G : Gram α} {F : α → Gram β} (hG : Ens P G) (hF : ∀ a, P a → Ens Q (F a)) :
    Ens Q (G >>= F) := by
  rintro w v ⟨w₁, w₂, a, rfl, h1, h2⟩
  have h1 := hG _ _ h1
  have h2 := hF a h1.2 _ _ h2
  exact ⟨h1.1.append h2.1, h2.2⟩

theorem ens_mono {P' : α → Prop} {G : Gram α} (hG : Ens P G) (h : ∀ a, P a → P' a) : Ens P' G :=
  fun w v hw => ⟨(hG w v hw).1, h _ (hG w v hw).2⟩

theorem ens_lit {s : Bytes} {P : Unit → Prop} (h : ∀ x ∈ s, vchar x = true ∨ wsp x = true)
    (hp : P ()) : Ens P (lit s) := by
  rintro w ⟨⟩ rfl; exact ⟨folded_of h, hp⟩

theorem lower_printable : ∀ x y : UInt8, asciiLower x = asciiLower y → vchar y = true → vchar x = true := by
  have : ∀ x : UInt8, vchar (asciiLower x) = vchar x := by decide +kernel
  intro x y h hy
  rw [← this x, h, this y, hy]

theorem ens_litNoCase {s : Bytes} {P : Unit → Prop} (h : ∀ x ∈ s, vchar x = true)
    (hp : P ()) : Ens P (litNoCase s) := by
  rintro w ⟨⟩ hw
  refine ⟨folded_of fun x hx => .inl ?_, hp⟩
  have : asciiLower x ∈ s.map asciiLower := hw ▸ List.mem_map.2 ⟨x, hx, rfl⟩
  obtain ⟨y, hy, he⟩ := List.mem_map.1 this
  exact lower_printable x y he.symm (h y hy)

theorem ens_chars {p : UInt8 → Bool} (h : ∀ x, p x = true → vchar x = true ∨ wsp x = true) :
    Ens (fun s => ∀ x ∈ s, p x = true) (chars p) := by
  rintro w v ⟨rfl, hw⟩; exact ⟨folded_of fun x hx => h x (hw x hx), hw⟩

theorem ens_chars1 {p : UInt8 → Bool} (h : ∀ x, p x = true → vchar x = true ∨ wsp x = true) :
    Ens (fun s => ∀ x ∈ s, p x = true) (chars1 p) := by
  rintro w v ⟨rfl, -, hw⟩; exact ⟨folded_of fun x hx => h x (hw x hx), hw⟩

theorem ens_char {p : UInt8 → Bool} (h : ∀ x, p x = true → vchar x = true ∨ wsp x = true) :
    Ens (fun x => p x = true) (Gram.char p) := by
  rintro w v ⟨rfl, hw⟩
  exact ⟨folded_of fun x hx => by rw [List.mem_singleton.1 hx]; exact h v hw, hw⟩

theorem ens_or {G H : Gram α} (hG : Ens P G) (hH : Ens P H) : Ens P (Gram.or G H) := by
  rintro w v (h | h)
  · exact hG w v h
  · exact hH w v h

theorem ens_opt {G : Gram α} (hG : Ens P G) : Ens (fun o => ∀ v, o = some v → P v) (opt G) := by
  rintro w v (⟨rfl, rfl⟩ | ⟨a, rfl, h⟩)
  · exact ⟨.nil, by simp⟩
  · exact ⟨(hG _ _ h).1, fun v hv => by cases hv; exact (hG _ _ h).2⟩

theorem ens_star {G : Gram α} (hG : Ens P G) : Ens (fun l => ∀ v ∈ l, P v) (star G) := by
  intro w v h
  induction h with
  | nil => exact ⟨.nil, by simp⟩
  | cons h _ ih =>
    refine ⟨(hG _ _ h).1.append ih.1, fun v hv => ?_⟩
    rcases List.mem_cons.1 hv with rfl | hv
    · exact (hG _ _ h).2
    · exact ih.2 v hv

theorem ens_plus {G : Gram α} (hG : Ens P G) : Ens (fun l => ∀ v ∈ l, P v) (plus G) :=
  ens_bind hG fun a ha => ens_bind (ens_star hG) fun as has => ens_pure fun v hv => by
    rcases List.mem_cons.1 hv with rfl | hv
    · exact ha
    · exact has v hv

theorem ens_skip {G : Gram α} (hG : Ens P G) {Q : Unit → Prop} (hq : Q ()) : Ens Q (skip G) := by
  rintro w ⟨⟩ ⟨v, h⟩; exact ⟨(hG _ _ h).1, hq⟩

theorem ens_filter {G : Gram α} {p : α → Prop} (hG : Ens P G) : Ens P (Gram.filter p G) := by
  rintro w v ⟨h, -⟩; exact hG w v h

theorem ens_map {G : Gram α} {f : α → β} (hG : Ens P G) (h : ∀ a, P a → Q (f a)) :
    Ens Q (Gram.map f G) := by
  rintro w v ⟨a, rfl, hw⟩
  exact ⟨(hG _ _ hw).1, h _ (hG _ _ hw).2⟩

theorem ens_true {G : Gram α} (hG : Ens P G) : Ens (fun _ => True) G := ens_mono hG fun _ _ => trivial

end

/-! ### Lexical tokens -/

/-- No condition on the value. -/
abbrev Any {α : Type} : α → Prop := fun _ => True

/-- Printable characters and white space. -/
def Printable (s : Bytes) : Prop := ∀ x ∈ s, vchar x = true ∨ wsp x = true

theorem Printable.append {u v : Bytes} (hu : Printable u) (hv : Printable v) : Printable (u ++ v) := by
  intro x hx
  rcases List.mem_append.1 hx with h | h
  · exact hu x h
  · exact hv x h

theorem Printable.flatten {ws : List Bytes} (h : ∀ w ∈ ws, Printable w) : Printable ws.flatten := by
  intro x hx
  obtain ⟨w, hw, hx⟩ := List.mem_flatten.1 hx
  exact h w hw x hx

theorem wsp_ok (x : UInt8) (h : wsp x = true) : vchar x = true ∨ wsp x = true := .inr h
theorem vchar_ok (x : UInt8) (h : vchar x = true) : vchar x = true ∨ wsp x = true := .inl h
theorem and_ok {p : UInt8 → Bool} (x : UInt8) (h : (vchar x && p x) = true) :
    vchar x = true ∨ wsp x = true := .inl (Bool.and_eq_true _ _ ▸ h).1

theorem ens_printable {p : UInt8 → Bool} (h : ∀ x, p x = true → vchar x = true ∨ wsp x = true) :
    Ens Printable (chars p) := ens_mono (ens_chars h) fun _ hs x hx => h x (hs x hx)

theorem ens_printable1 {p : UInt8 → Bool} (h : ∀ x, p x = true → vchar x = true ∨ wsp x = true) :
    Ens Printable (chars1 p) := ens_mono (ens_chars1 h) fun _ hs x hx => h x (hs x hx)

theorem ens_fws : Ens Printable Fws := by
  rintro w v (⟨w₁, w₂, b, rfl, ⟨rfl, hb⟩, w₃, w₄, _, rfl, rfl, w₅, w₆, a, rfl, ⟨rfl, hne, ha⟩, rfl, rfl⟩ |
    ⟨rfl, -, h⟩)
  · refine ⟨?_, fun x hx => .inr ?_⟩
    · refine Folded.append (folded_of fun x hx => .inr (hb x hx)) ?_
      cases a with
      | nil => exact absurd rfl hne
      | cons x a =>
        rw [List.append_nil]
        exact .fold (ha x (by simp)) (folded_of fun y hy => .inr (ha y (by simp [hy])))
    · rcases List.mem_append.1 hx with h | h
      · exact hb x h
      · exact ha x h
  · exact ⟨folded_of fun x hx => .inr (h x hx), fun x hx => .inr (h x hx)⟩

theorem ens_optFws : Ens Printable OptFws :=
  ens_map (ens_opt ens_fws) fun o ho => by
    cases o with
    | none => intro x hx; cases hx
    | some v => exact ho v rfl

theorem ens_quotedPair : Ens Printable QuotedPair :=
  ens_bind (P := Any) (ens_lit (by decide +kernel) trivial) fun _ _ =>
    ens_bind (ens_char fun x hx => by simpa using hx) fun x hx => ens_pure fun y hy => by
      rw [List.mem_singleton.1 hy]; simpa using hx

theorem ens_commentN : ∀ n, Ens Any (CommentN n)
  | 0 => by rintro w v ⟨⟩
  | n + 1 =>
    ens_bind (P := Any) (ens_lit (by decide +kernel) trivial) fun _ _ =>
      ens_bind (P := Any) (ens_true (ens_star (ens_bind (ens_opt ens_fws) fun _ _ =>
        ens_or (ens_skip (ens_chars1 and_ok) trivial)
          (ens_or (ens_skip ens_quotedPair trivial) (ens_commentN n))))) fun _ _ =>
        ens_bind (ens_opt ens_fws) fun _ _ => ens_lit (by decide +kernel) trivial

theorem ens_comment : Ens Any Comment := fun w v ⟨n, h⟩ => ens_commentN n w v h

theorem ens_cfws : Ens Any Cfws :=
  ens_or
    (ens_bind (ens_plus (ens_bind (ens_opt ens_fws) fun _ _ => ens_comment)) fun _ _ =>
      ens_bind (ens_opt ens_fws) fun _ _ => ens_pure trivial)
    (ens_skip ens_fws trivial)

theorem ens_optCfws : Ens Any OptCfws := ens_skip (ens_opt ens_cfws) trivial

theorem ens_atom : Ens Printable Atom :=
  ens_bind ens_optCfws fun _ _ => ens_bind (ens_printable1 and_ok) fun _ h =>
    ens_bind ens_optCfws fun _ _ => ens_pure h

theorem ens_dotPart {lax : Bool} : Ens Printable (DotPart lax) := by
  cases lax
  · exact ens_printable1 and_ok
  · exact ens_printable and_ok

theorem ens_dotAtomText {lax : Bool} : Ens Printable (DotAtomText lax) :=
  ens_bind (ens_printable1 and_ok) fun _ h =>
    ens_bind (ens_star (ens_bind (P := Any) (ens_lit (by decide +kernel) trivial) fun _ _ =>
      ens_bind ens_dotPart fun _ h => ens_pure (Printable.append (by unfold Printable; decide +kernel) h))) fun _ h' =>
      ens_pure (h.append (Printable.flatten h'))

theorem ens_dotAtom {lax : Bool} : Ens Printable (DotAtom lax) :=
  ens_bind ens_optCfws fun _ _ => ens_bind ens_dotAtomText fun _ h =>
    ens_bind ens_optCfws fun _ _ => ens_pure h

theorem ens_quotedString : Ens Printable QuotedString :=
  ens_bind ens_optCfws fun _ _ => ens_bind (P := Any) (ens_lit (by decide +kernel) trivial) fun _ _ =>
    ens_bind (ens_star (ens_bind ens_optFws fun _ h =>
      ens_bind (ens_or (ens_printable1 and_ok) ens_quotedPair) fun _ h' =>
        ens_pure (h.append h'))) fun _ h =>
      ens_bind ens_optFws fun _ h' =>
        ens_bind (P := Any) (ens_lit (by decide +kernel) trivial) fun _ _ =>
          ens_bind ens_optCfws fun _ _ => ens_pure ((Printable.flatten h).append h')

theorem ens_word : Ens Printable Word := ens_or ens_atom ens_quotedString

theorem ens_unstructured : Ens Printable Unstructured :=
  ens_bind (ens_star (ens_bind ens_optFws fun _ h =>
    ens_bind (ens_printable1 vchar_ok) fun _ h' => ens_pure (h.append h'))) fun _ h =>
    ens_bind (ens_chars wsp_ok) fun _ _ => ens_pure (Printable.flatten h)

theorem ens_domainLiteral : Ens Printable DomainLiteral :=
  ens_bind ens_optCfws fun _ _ => ens_bind (P := Any) (ens_lit (by decide +kernel) trivial) fun _ _ =>
    ens_bind (ens_star (ens_bind (ens_opt ens_fws) fun _ _ => ens_printable1 and_ok)) fun _ h =>
      ens_bind (ens_opt ens_fws) fun _ _ =>
        ens_bind (P := Any) (ens_lit (by decide +kernel) trivial) fun _ _ =>
          ens_bind ens_optCfws fun _ _ => ens_pure (Printable.flatten h)

theorem ens_localPart {lax : Bool} : Ens Printable (LocalPart lax) := ens_or ens_dotAtom ens_quotedString
theorem ens_domain {lax : Bool} : Ens Printable (Domain lax) := ens_or ens_dotAtom ens_domainLiteral


/-! ### Encoded words, addresses -/

theorem wsp_lower : ∀ x : UInt8, wsp (asciiLower x) = wsp x := by decide +kernel
theorem vchar_lower : ∀ x : UInt8, vchar (asciiLower x) = vchar x := by decide +kernel
theorem ftext_lower : ∀ x : UInt8, ftext (asciiLower x) = ftext x := by decide +kernel
theorem ftext_vchar : ∀ x : UInt8, ftext x = true → vchar x = true := by decide +kernel
theorem digit_ok : ∀ x : UInt8, Spec.digit x = true → vchar x = true ∨ wsp x = true := by decide +kernel

theorem Printable.lower {s : Bytes} (h : Printable s) : Printable (s.map asciiLower) := by
  intro x hx
  obtain ⟨y, hy, rfl⟩ := List.mem_map.1 hx
  rw [vchar_lower, wsp_lower]
  exact h y hy

theorem Printable.of_lower {s : Bytes} (h : Printable (s.map asciiLower)) : Printable s := by
  intro x hx
  have := h _ (List.mem_map.2 ⟨x, hx, rfl⟩)
  rwa [vchar_lower, wsp_lower] at this

variable {V : Bytes → Prop} (hV : StrOk c V)
include hV

theorem ens_encodedWord (hm : c.feat.mime = true) : Ens V (EncodedWord c) := by
  rintro w v ⟨charset, language, encoding, text, bytes, rfl, ⟨-, h1⟩, h2, ⟨-, h3⟩, h4, h5⟩
  refine ⟨?_, hV.encoded hm h5⟩
  have hc : Folded charset := folded_of fun x hx => .inl (by
    have := h1 x hx; simp only [charsetChar, encodingChar, Bool.and_eq_true] at this; exact this.1.1)
  have hl : Folded language := by
    rcases h2 with rfl | ⟨l, rfl, -, h⟩
    · exact .nil
    · exact .char (by decide +kernel) (folded_of fun x hx => .inl (by
        have := h x hx; simp only [encodingChar, Bool.and_eq_true] at this; exact this.1))
  have ht : Folded text := folded_of fun x hx => .inl (by
    have := h3 x hx; simp only [encodedTextChar, Bool.and_eq_true] at this; exact this.1)
  have he : Folded encoding := by
    have : Printable (encoding.map asciiLower) := by
      rcases h4 with ⟨h, -⟩ | ⟨h, -⟩ <;> rw [h] <;> unfold Printable <;> decide +kernel
    exact folded_of this.of_lower
  have l : ∀ {s : Bytes}, Printable s → Folded s := fun h => folded_of h
  exact (((((((l (by unfold Printable; decide +kernel)).append hc).append hl).append
    (l (by unfold Printable; decide +kernel))).append he).append
    (l (by unfold Printable; decide +kernel))).append ht).append
    (l (by unfold Printable; decide +kernel))

theorem ens_phraseWord : Ens V (PhraseWord c) := by
  unfold PhraseWord
  split
  · rename_i hm
    exact ens_or (ens_bind (ens_opt ens_fws) fun _ _ => ens_encodedWord hV hm)
      (ens_mono ens_word fun _ h => hV.printable h)
  · exact ens_mono ens_word fun _ h => hV.printable h

theorem ens_phrase : Ens (Strings.All V) (Phrase c) := ens_plus (ens_phraseWord hV)

theorem joinPieces_all {ps : List Piece} (h : ∀ p ∈ ps, V p.white ∧ V p.text) (b : Bool) :
    V (joinPieces b ps) := by
  induction ps generalizing b with
  | nil => exact hV.nil
  | cons p ps ih =>
    have hp := h p (by simp)
    unfold joinPieces
    refine hV.append (hV.append ?_ hp.2) (ih (fun q hq => h q (by simp [hq])) _)
    split
    · exact hV.nil
    · exact hp.1

theorem ens_mimeUnstructured (hm : c.feat.mime = true) : Ens V (MimeUnstructured c) :=
  ens_bind (ens_star (P := fun p : Piece => V p.white ∧ V p.text)
    (ens_bind (ens_mono ens_optFws fun _ h => hV.printable h) fun _ h =>
      ens_or
        (ens_bind (ens_encodedWord hV hm) fun _ h' => ens_pure ⟨h, h'⟩)
        (ens_bind (ens_printable1 vchar_ok) fun _ h' => ens_pure ⟨h, hV.printable h'⟩))) fun _ h =>
    ens_bind (ens_chars wsp_ok) fun _ _ => ens_pure (joinPieces_all hV h false)

theorem ens_textValue {mime : Bool} (hm : mime = true → c.feat.mime = true) :
    Ens V (TextValue mime c) := by
  unfold TextValue
  split
  · rename_i h; exact ens_mimeUnstructured hV (hm h)
  · exact ens_mono ens_unstructured fun _ h => hV.printable h

theorem ens_addrSpec {lax : Bool} : Ens (Strings.All V) (AddrSpec lax) :=
  ens_bind ens_localPart fun _ h => ens_bind (P := Any) (ens_lit (by decide +kernel) trivial) fun _ _ =>
    ens_bind ens_domain fun _ h' => ens_pure ⟨hV.printable h, hV.printable h'⟩

theorem ens_angleAddr {lax : Bool} : Ens (Strings.All V) (AngleAddr lax) :=
  ens_bind ens_optCfws fun _ _ => ens_bind (P := Any) (ens_lit (by decide +kernel) trivial) fun _ _ =>
    ens_bind (ens_addrSpec hV) fun _ h =>
      ens_bind (P := Any) (ens_lit (by decide +kernel) trivial) fun _ _ =>
        ens_bind ens_optCfws fun _ _ => ens_pure h

theorem ens_mailbox : Ens (Strings.All V) (MailboxG c) :=
  ens_or
    (ens_bind (ens_opt (ens_phrase hV)) fun _ h => ens_bind (ens_angleAddr hV) fun _ h' =>
      ens_pure ⟨h, h'⟩)
    (ens_bind (ens_addrSpec hV) fun _ h => ens_pure ⟨fun v hv => (by cases hv), h⟩)

omit hV in
theorem ens_commaList {P : α → Prop} {G : Gram α} (h : Ens P G) :
    Ens (fun l => ∀ v ∈ l, P v) (CommaList G) :=
  ens_bind h fun _ ha => ens_bind (ens_star (ens_bind (P := Any)
    (ens_lit (by decide +kernel) trivial) fun _ _ => h)) fun _ has => ens_pure fun v hv => by
      rcases List.mem_cons.1 hv with rfl | hv
      · exact ha
      · exact has v hv

theorem ens_mailboxList : Ens (Strings.All V) (MailboxList c) := ens_commaList (ens_mailbox hV)

theorem ens_groupList : Ens (Strings.All V) (GroupList c) :=
  ens_or (ens_mailboxList hV) (ens_bind ens_optCfws fun _ _ => ens_pure (by intro v hv; cases hv))

theorem ens_group : Ens (Strings.All V) (Group c) :=
  ens_bind (ens_phrase hV) fun _ h => ens_bind (P := Any) (ens_lit (by decide +kernel) trivial) fun _ _ =>
    ens_bind (ens_groupList hV) fun _ h' =>
      ens_bind (P := Any) (ens_lit (by decide +kernel) trivial) fun _ _ =>
        ens_bind ens_optCfws fun _ _ => ens_pure ⟨h, h'⟩

theorem ens_address : Ens (Strings.All V) (AddressG c) :=
  ens_or (ens_map (ens_mailbox hV) fun _ h => h) (ens_map (ens_group hV) fun _ h => h)

theorem ens_addressList : Ens (Strings.All V) (AddressList c) := ens_commaList (ens_address hV)

omit hV in
theorem ens_noFoldLiteral : Ens Printable NoFoldLiteral :=
  ens_bind (P := Any) (ens_lit (by decide +kernel) trivial) fun _ _ =>
    ens_bind (ens_printable and_ok) fun _ h =>
      ens_bind (P := Any) (ens_lit (by decide +kernel) trivial) fun _ _ => ens_pure h

theorem ens_messageId {lax : Bool} : Ens (Strings.All V) (MessageId lax) :=
  ens_bind ens_optCfws fun _ _ => ens_bind (P := Any) (ens_lit (by decide +kernel) trivial) fun _ _ =>
    ens_bind ens_dotAtomText fun _ h =>
      ens_bind (P := Any) (ens_lit (by decide +kernel) trivial) fun _ _ =>
        ens_bind (ens_or ens_dotAtomText ens_noFoldLiteral) fun _ h' =>
          ens_bind (P := Any) (ens_lit (by decide +kernel) trivial) fun _ _ =>
            ens_bind ens_optCfws fun _ _ => ens_pure ⟨hV.printable h, hV.printable h'⟩

omit hV

/-! ### Dates -/

theorem ens_number {lo hi : Nat} : Ens Any (Number lo hi) :=
  ens_bind (ens_filter (ens_chars digit_ok)) fun _ _ => ens_pure trivial

theorem ens_dayOfWeek : Ens Any DayOfWeek :=
  ens_bind (ens_opt ens_fws) fun _ _ => ens_bind (P := Any)
    (fun w d h => by
      cases d <;> exact ens_litNoCase (P := Any) (by decide +kernel) trivial w () h) fun _ _ =>
    ens_bind (P := Any) (ens_lit (by decide +kernel) trivial) fun _ _ => ens_pure trivial

theorem ens_dayG : Ens Any DayG :=
  ens_bind (ens_opt ens_fws) fun _ _ => ens_bind (ens_filter ens_number) fun _ _ =>
    ens_bind ens_fws fun _ _ => ens_pure trivial

theorem ens_monthG : Ens Any MonthG := fun w d h => by
  cases d <;> exact ens_litNoCase (P := Any) (by decide +kernel) trivial w () h

theorem ens_year : Ens Any Year :=
  ens_bind ens_fws fun _ _ => ens_bind (ens_filter (ens_chars digit_ok)) fun _ _ =>
    ens_bind (P := Any) (ens_filter (ens_pure trivial)) fun _ _ =>
      ens_bind ens_fws fun _ _ => ens_pure trivial

theorem ens_timeOfDay : Ens Any TimeOfDay :=
  ens_bind (ens_filter ens_number) fun _ _ =>
    ens_bind (P := Any) (ens_lit (by decide +kernel) trivial) fun _ _ =>
      ens_bind (ens_filter ens_number) fun _ _ =>
        ens_bind (ens_opt (ens_bind (P := Any) (ens_lit (by decide +kernel) trivial) fun _ _ =>
          ens_filter ens_number)) fun _ _ => ens_pure trivial

theorem ens_zoneG : Ens Any ZoneG :=
  ens_bind ens_fws fun _ _ =>
    ens_bind (P := Any) (ens_or
      (ens_map (P := Any) (ens_lit (by decide +kernel) trivial) fun _ _ => trivial)
      (ens_map (P := Any) (ens_lit (by decide +kernel) trivial) fun _ _ => trivial)) fun _ _ =>
      ens_bind ens_number fun _ _ => ens_bind (ens_filter ens_number) fun _ _ => ens_pure trivial

theorem ens_dateTime : Ens Any DateTimeG :=
  ens_bind (ens_opt ens_dayOfWeek) fun _ _ => ens_bind ens_dayG fun _ _ =>
    ens_bind ens_monthG fun _ _ => ens_bind ens_year fun _ _ => ens_bind ens_timeOfDay fun _ _ =>
      ens_bind ens_zoneG fun _ _ => ens_bind ens_optCfws fun _ _ => ens_pure trivial

/-! ### MIME fields -/

theorem ens_token : Ens Printable Token := ens_printable1 and_ok

theorem ens_inlineCfws : Ens Any InlineCfws :=
  ens_bind (ens_chars wsp_ok) fun _ _ => ens_bind (ens_opt ens_comment) fun _ _ =>
    ens_bind (ens_chars wsp_ok) fun _ _ => ens_pure trivial

theorem ens_u8 : Ens Any U8Number := ens_filter (ens_map (ens_chars1 digit_ok) fun _ _ => trivial)

theorem ens_mimeVersion : Ens Any MimeVersion :=
  ens_bind ens_optCfws fun _ _ => ens_bind ens_u8 fun _ _ =>
    ens_bind (P := Any) (ens_lit (by decide +kernel) trivial) fun _ _ =>
      ens_bind ens_u8 fun _ _ => ens_bind ens_inlineCfws fun _ _ => ens_pure trivial

theorem ens_extendedName : Ens (fun v => Printable v.1) ExtendedName :=
  ens_bind (ens_printable1 fun x h => by
    simp only [tokenChar, Bool.and_eq_true] at h; exact .inl h.1.1) fun _ h =>
    ens_bind (ens_opt (ens_bind (P := Any) (ens_lit (by decide +kernel) trivial) fun _ _ =>
      ens_u8)) fun _ _ =>
      ens_bind (P := Any) (ens_map (P := fun _ => True)
        (ens_mono (ens_opt (P := Any) (ens_lit (by decide +kernel) trivial)) fun _ _ => trivial)
        fun _ _ => trivial) fun _ _ => ens_pure h

theorem ens_paramName : Ens (fun v => Printable v.1) ParamName := by
  rintro w v (h | ⟨-, h, rfl⟩)
  · exact ens_extendedName w v h
  · exact ens_token w w h

theorem ens_paramText : Ens Printable ParamText := ens_or ens_token ens_quotedString

/-- The strings of a raw parameter are printable. -/
def RawOk (p : RawParam) : Prop := Printable p.name ∧ Printable p.value

theorem ens_parameter : Ens RawOk Parameter :=
  ens_bind ens_optCfws fun _ _ => ens_bind (P := Any) (ens_lit (by decide +kernel) trivial) fun _ _ =>
    ens_bind ens_optCfws fun _ _ => ens_bind ens_paramName fun _ h =>
      ens_bind (P := Any) (ens_lit (by decide +kernel) trivial) fun _ _ =>
        ens_bind ens_paramText fun _ h' => ens_pure ⟨h.lower, h'⟩

theorem ens_namedOr {table : List (Bytes × α)} {other : Bytes → α} {P : α → Prop}
    (ht : ∀ e ∈ table, Printable e.1 ∧ P e.2) (ho : ∀ s, Printable s → P (other s)) :
    Ens P (NamedOr table other) := by
  rintro w v (⟨s, hs, h⟩ | ⟨h, -, rfl⟩)
  · have := ht _ hs
    refine ⟨folded_of ?_, this.2⟩
    have hp : Printable (w.map asciiLower) := h ▸ this.1
    exact hp.of_lower
  · have := ens_token w w h
    exact ⟨this.1, ho _ this.2.lower⟩

section
include hV

theorem segmentText_all (hm : c.feat.mime = true) {charset bytes text : Bytes}
    (h : SegmentText c charset bytes text) (hb : Printable bytes) : V text := by
  rcases h with ⟨-, h⟩ | ⟨-, rfl⟩
  · exact hV.encoded hm h
  · exact hV.printable hb

theorem paramValue_all (hm : c.feat.mime = true) {ps : List RawParam} (hp : ∀ p ∈ ps, RawOk p)
    {name : Bytes} {v : Option Bytes} (h : ParamValue c ps name v) {x : Bytes} (hx : v = some x) :
    V name ∧ V x := by
  subst hx
  have mem : ∀ {f : RawParam → Bool} {p : RawParam}, lastWith f ps = some p → p ∈ ps ∧ f p = true := by
    intro f p h
    have := List.mem_of_getLast? h
    exact List.mem_filter.1 this
  unfold ParamValue at h
  split at h
  · cases hq : plainParam ps name with
    | none => simp [hq] at h
    | some p =>
      obtain ⟨hmem, hf⟩ := mem hq
      simp only [hq, Option.map_some, Option.some.injEq] at h
      have hn : p.name = name := by simp at hf; exact hf.1
      subst h
      exact ⟨hn ▸ hV.printable (hp p hmem).1, hV.printable (hp p hmem).2⟩
  · rename_i initial hi
    obtain ⟨hmem, hf⟩ := mem hi
    have hn : initial.name = name := by simp at hf; exact hf.1
    obtain ⟨charset, first, h1, texts, h2, -, h3⟩ := h
    refine ⟨hn ▸ hV.printable (hp _ hmem).1, ?_⟩
    cases h3
    refine hV.append ?_ (hV.flatten ?_)
    · rcases h1 with ⟨-, -, rfl⟩ | ⟨-, cs, language, bytes, hv, -, -, -, h⟩
      · exact hV.printable (hp _ hmem).2
      · refine segmentText_all hV hm h fun y hy => (hp _ hmem).2 y ?_
        rw [hv]; simp [hy]
    · intro w hw
      obtain ⟨k, hk, rfl⟩ := List.mem_iff_getElem.1 hw
      obtain ⟨p, hs, hf⟩ := h2 k hk
      obtain ⟨hmem, -⟩ := mem hs
      have hpv := (hp p hmem).2
      unfold FurtherText at hf
      split at hf
      · exact segmentText_all hV hm hf hpv
      · rw [hf]; exact hV.printable hpv

theorem ens_collected (hm : c.feat.mime = true) {ps : List RawParam} (hp : ∀ p ∈ ps, RawOk p) :
    Ens (Strings.All V) (Collected c ps) := by
  rintro w v ⟨rfl, h⟩
  exact ⟨.nil, fun name value hv => paramValue_all hV hm hp (h name) hv⟩

theorem ens_contentType (hm : c.feat.mime = true) : Ens (Strings.All V) (ContentTypeG c) :=
  ens_bind ens_optCfws fun _ _ =>
    ens_bind (ens_namedOr (P := Strings.All V)
      (by
        have : ∀ e ∈ typeNames, Printable e.1 ∧ ∀ name, e.2 ≠ .unknown name := by
          unfold Printable typeNames
          intro e he
          simp only [List.mem_cons, List.not_mem_nil, or_false] at he
          rcases he with rfl | rfl | rfl | rfl | rfl | rfl | rfl <;>
            exact ⟨by decide +kernel, fun _ h => by cases h⟩
        exact fun e he => ⟨(this e he).1, fun name h => absurd h ((this e he).2 name)⟩)
      (fun s hs name h => by cases h; exact hV.printable hs)) fun _ h1 =>
      ens_bind (P := Any) (ens_lit (by decide +kernel) trivial) fun _ _ =>
        ens_bind ens_token fun _ h2 => ens_bind (ens_star ens_parameter) fun _ hp =>
          ens_bind (ens_collected hV hm hp) fun _ h3 => ens_bind ens_inlineCfws fun _ _ =>
            ens_pure ⟨h1, hV.printable h2.lower, h3⟩

omit hV in
theorem ens_dateParam {name : Bytes} (h : ∀ x ∈ name, vchar x = true) : Ens Any (DateParam name) :=
  ens_bind ens_optCfws fun _ _ => ens_bind (P := Any) (ens_lit (by decide +kernel) trivial) fun _ _ =>
    ens_bind ens_optCfws fun _ _ => ens_bind (P := Any) (ens_litNoCase h trivial) fun _ _ =>
      ens_bind (P := Any) (ens_lit (by decide +kernel) trivial) fun _ _ =>
        ens_bind ens_dateTime fun _ _ =>
          ens_bind (P := Any) (ens_lit (by decide +kernel) trivial) fun _ _ => ens_pure trivial

/-- The strings of an item of a disposition are printable. -/
def ItemOk : DispositionItem → Prop
  | .filename v => Printable v
  | .parameter p => RawOk p
  | _ => True

omit hV in
theorem ens_dispositionParam : Ens ItemOk DispositionParam := by
  rintro w v (⟨value, rfl, h⟩ | ⟨d, rfl, h⟩ | ⟨d, rfl, h⟩ | ⟨d, rfl, h⟩ | ⟨p, rfl, h, -⟩)
  · exact (ens_bind ens_optCfws fun _ _ =>
      ens_bind (P := Any) (ens_lit (by decide +kernel) trivial) fun _ _ =>
        ens_bind ens_optCfws fun _ _ =>
          ens_bind (P := Any) (ens_litNoCase (by decide +kernel) trivial) fun _ _ =>
            ens_bind (P := Any) (ens_lit (by decide +kernel) trivial) fun _ _ => ens_paramText) w value h
  · exact ens_dateParam (by decide +kernel) w d h
  · exact ens_dateParam (by decide +kernel) w d h
  · exact ens_dateParam (by decide +kernel) w d h
  · exact ens_parameter w p h

theorem ens_disposition (hm : c.feat.mime = true) : Ens (Strings.All V) (DispositionG c) :=
  ens_bind ens_optCfws fun _ _ =>
    ens_bind (ens_namedOr (P := Strings.All V)
      (by
        have : ∀ e ∈ dispositionNames, Printable e.1 ∧ ∀ name, e.2 ≠ .unknown name := by
          unfold Printable dispositionNames
          intro e he
          simp only [List.mem_cons, List.not_mem_nil, or_false] at he
          rcases he with rfl | rfl <;> exact ⟨by decide +kernel, fun _ h => by cases h⟩
        exact fun e he => ⟨(this e he).1, fun name h => absurd h ((this e he).2 name)⟩)
      (fun s hs name h => by cases h; exact hV.printable hs)) fun _ h1 =>
      ens_bind (ens_star ens_dispositionParam) fun items hi =>
        ens_bind (ens_collected hV hm (by
          intro p hp
          obtain ⟨x, hx, he⟩ := List.mem_filterMap.1 hp
          cases x <;> simp at he
          subst he
          exact hi _ hx)) fun _ h3 => ens_bind ens_inlineCfws fun _ _ =>
            ens_pure ⟨h1, by
              intro v hv
              obtain ⟨x, hx, he⟩ := List.mem_filterMap.1 (List.mem_of_getLast? hv)
              cases x <;> simp at he
              subst he
              exact hV.printable (hi _ hx), h3⟩

theorem ens_transferEncoding : Ens (Strings.All V) TransferEncodingG :=
  ens_bind ens_optCfws fun _ _ =>
    ens_bind (ens_namedOr (P := Strings.All V)
      (by
        have : ∀ e ∈ encodingNames, Printable e.1 ∧ ∀ name, e.2 ≠ .unknown name := by
          unfold Printable encodingNames
          intro e he
          simp only [List.mem_cons, List.not_mem_nil, or_false] at he
          rcases he with rfl | rfl | rfl | rfl | rfl <;> exact ⟨by decide +kernel, fun _ h => by cases h⟩
        exact fun e he => ⟨(this e he).1, fun name h => absurd h ((this e he).2 name)⟩)
      (fun s hs name h => by cases h; exact hV.printable hs)) fun _ h1 =>
      ens_bind ens_inlineCfws fun _ _ => ens_pure h1

end

/-! ### Header fields -/

theorem HeaderLines.nil : HeaderLines [] := ⟨[], rfl, by simp⟩

theorem HeaderLines.append {u v : Bytes} (hu : HeaderLines u) (hv : HeaderLines v) :
    HeaderLines (u ++ v) := by
  obtain ⟨ls, rfl, h⟩ := hu
  obtain ⟨ls', rfl, h'⟩ := hv
  refine ⟨ls ++ ls', by simp, fun l hl => ?_⟩
  rcases List.mem_append.1 hl with hl | hl
  · exact h l hl
  · exact h' l hl

/-- The texts of `G` are header lines, their values satisfy `P`. -/
def Lines (P : α → Prop) (G : Gram α) : Prop := ∀ w v, G w v → HeaderLines w ∧ P v

section
variable {P : α → Prop} {Q : β → Prop}

theorem lines_pure {a : α} (h : P a) : Lines P (pure a : Gram α) := by
  rintro w v ⟨rfl, rfl⟩; exact ⟨HeaderLines.nil, h⟩

theorem lines_bind {G : Gram α} {F : α → Gram β} (hG : Lines P G) (hF : ∀ a, P a → Lines Q (F a)) :
    Lines Q (G >>= F) := by
  rintro w v ⟨w₁, w₂, a, rfl, h1, h2⟩
  have h1 := hG _ _ h1
  have h2 := hF a h1.2 _ _ h2
  exact ⟨HeaderLines.append h1.1 h2.1, h2.2⟩

theorem lines_opt {G : Gram α} (hG : Lines P G) : Lines (fun o => ∀ v, o = some v → P v) (opt G) := by
  rintro w v (⟨rfl, rfl⟩ | ⟨a, rfl, h⟩)
  · exact ⟨HeaderLines.nil, by simp⟩
  · exact ⟨(hG _ _ h).1, fun v hv => by cases hv; exact (hG _ _ h).2⟩

theorem lines_star {G : Gram α} (hG : Lines P G) : Lines (fun l => ∀ v ∈ l, P v) (star G) := by
  intro w v h
  induction h with
  | nil => exact ⟨HeaderLines.nil, by simp⟩
  | cons h _ ih =>
    refine ⟨HeaderLines.append (hG _ _ h).1 ih.1, fun v hv => ?_⟩
    rcases List.mem_cons.1 hv with rfl | hv
    · exact (hG _ _ h).2
    · exact ih.2 v hv

theorem lines_plus {G : Gram α} (hG : Lines P G) : Lines (fun l => ∀ v ∈ l, P v) (plus G) :=
  lines_bind hG fun a ha => lines_bind (lines_star hG) fun as has => lines_pure fun v hv => by
    rcases List.mem_cons.1 hv with rfl | hv
    · exact ha
    · exact has v hv

theorem lines_header {x : UInt8} {name : Bytes} {G : Gram α} (hG : Ens P G)
    (hx : ftext x = true) (hn : name.getLast? = some 58 ∧ ∀ y ∈ name.dropLast, ftext y = true) :
    Lines P (HeaderLine (x :: name) G) := by
  rintro w v ⟨w₁, w₂, _, rfl, h1, w₃, w₄, a, rfl, h2, w₅, w₆, _, rfl, h3, h4, rfl⟩
  obtain rfl : w₅ = CRLF := h3
  subst h4
  have hw := hG _ _ h2
  obtain ⟨n, rfl⟩ : ∃ n, name = n ++ [58] := List.getLast?_eq_some_iff.1 hn.1
  have hn := hn.2
  rw [List.dropLast_concat] at hn
  refine ⟨⟨[w₁ ++ w₃], by simp, fun l hl => ?_⟩, hw.2⟩
  rw [List.mem_singleton.1 hl]
  have h1' : w₁.map asciiLower = (x :: n).map asciiLower ++ [58] := by
    have : w₁.map asciiLower = (x :: (n ++ [58])).map asciiLower := h1
    rw [this]
    simp [asciiLower]
  have hf : ∀ y ∈ x :: n, ftext y = true := by
    intro y hy
    rcases List.mem_cons.1 hy with rfl | hy
    · exact hx
    · exact hn y hy
  refine ⟨((ens_litNoCase (s := x :: (n ++ [58])) (P := Any) ?_ trivial) w₁ () h1).1.append hw.1, ?_⟩
  · intro y hy
    rw [← List.cons_append] at hy
    rcases List.mem_append.1 hy with hy | hy
    · exact ftext_vchar _ (hf y hy)
    · rw [List.mem_singleton.1 hy]
      decide
  · obtain ⟨u, u', rfl, h3, h4⟩ := List.map_eq_append_iff.1 h1'
    obtain ⟨y, rfl, hy⟩ : ∃ y, u' = [y] ∧ asciiLower y = 58 := by
      cases u' with
      | nil => simp at h4
      | cons y u' => cases u' <;> simp at h4; exact ⟨y, rfl, h4⟩
    obtain rfl : y = 58 := (by decide +kernel : ∀ y, asciiLower y = 58 → y = 58) y hy
    refine ⟨u, w₃, by simp, ?_, fun b hb => ?_⟩
    · rintro rfl
      simp at h3
    · have : asciiLower b ∈ (x :: n).map asciiLower := h3 ▸ List.mem_map_of_mem hb
      obtain ⟨y, hy, e⟩ := List.mem_map.1 this
      rw [← ftext_lower, ← e, ftext_lower, hf y hy]

end

section
include hV

theorem lines_optionalField (hu : c.feat.unrecognizedHeaders = true → c.feat.mime = true) :
    Lines (Strings.All V) (OptionalField c) := by
  rintro w v ⟨w₁, w₂, name, rfl, ⟨rfl, hne, h1⟩, w₃, w₄, _, rfl, h2, w₅, w₆, a, rfl, h3, w₇, w₈, _, rfl, h4,
    h5, rfl⟩
  obtain rfl : w₃ = b! ":" := h2
  obtain rfl : w₇ = CRLF := h4
  subst h5
  have hw := ens_textValue hV hu _ _ h3
  have hp : Printable name := fun x hx => .inl (ftext_vchar _ (h1 x hx))
  refine ⟨⟨[name ++ (b! ":" ++ w₅)], by simp, fun l hl => ?_⟩, hV.printable hp, hw.2⟩
  rw [List.mem_singleton.1 hl]
  refine ⟨(folded_of hp).append ((folded_of (by decide +kernel)).append hw.1), ?_⟩
  exact ⟨name, w₅, rfl, hne, h1⟩

theorem ens_bcc : Ens (Strings.All V) (Bcc c) :=
  ens_or (ens_addressList hV) (ens_bind ens_cfws fun _ _ => ens_pure (by intro v hv; cases hv))

theorem ens_path {lax : Bool} : Ens (Strings.All V) (Path lax) :=
  ens_or (ens_map (ens_angleAddr hV) fun _ h v hv => by cases hv; exact h)
    (ens_bind ens_optCfws fun _ _ => ens_bind (P := Any) (ens_lit (by decide +kernel) trivial) fun _ _ =>
      ens_bind ens_optCfws fun _ _ => ens_bind (P := Any) (ens_lit (by decide +kernel) trivial) fun _ _ =>
        ens_bind ens_optCfws fun _ _ => ens_pure (by intro v hv; cases hv))

theorem ens_receivedToken {lax : Bool} : Ens (Strings.All V) (ReceivedTokenG lax) := by
  intro w v h
  cases v with
  | word x => have := ens_word w x h; exact ⟨this.1, hV.printable this.2⟩
  | addr a =>
    rcases h with h | h
    · exact ens_angleAddr hV w a h
    · exact ens_addrSpec hV w a h
  | domain d => have := ens_domain w d h; exact ⟨this.1, hV.printable this.2⟩

theorem ens_received {lax : Bool} : Ens (Strings.All V) (ReceivedG lax) :=
  ens_bind (ens_star (ens_receivedToken hV)) fun _ h =>
    ens_bind (P := Any) (ens_lit (by decide +kernel) trivial) fun _ _ =>
      ens_bind ens_dateTime fun _ _ => ens_pure ⟨h, trivial⟩

omit hV in
theorem lines_prefix {pre name : Bytes} {x : UInt8} {G : Gram α} {P : α → Prop} (hG : Ens P G)
    (hx : ftext x = true) (hn : (pre ++ name).getLast? = some 58 ∧ ∀ y ∈ (pre ++ name).dropLast, ftext y = true)
    {w : Bytes} {v : α}
    (h : ∃ w₁ w₂, w = w₁ ++ w₂ ∧ litNoCase (x :: pre) w₁ () ∧ HeaderLine name G w₂ v) :
    HeaderLines w ∧ P v := by
  refine lines_header hG hx hn w v ?_
  obtain ⟨w₁, w₂, rfl, h1, w₃, w₄, ⟨⟩, rfl, h2, h3⟩ := h
  refine ⟨w₁ ++ w₃, w₄, (), by simp, ?_, h3⟩
  have h1 : w₁.map asciiLower = (x :: pre).map asciiLower := h1
  have h2 : w₃.map asciiLower = name.map asciiLower := h2
  show (w₁ ++ w₃).map asciiLower = (x :: (pre ++ name)).map asciiLower
  simp [h1, h2]

theorem lines_resent : Lines (Strings.All V) (ResentG c) := by
  rintro w f ⟨w₁, w₂, ⟨⟩, rfl, h1, h2⟩
  have hx : ftext 82 = true := by decide +kernel
  cases f with
  | date v => exact lines_prefix ens_dateTime hx (by decide +kernel) ⟨w₁, w₂, rfl, h1, h2⟩
  | «from» v => exact lines_prefix (ens_mailboxList hV) hx (by decide +kernel) ⟨w₁, w₂, rfl, h1, h2⟩
  | sender v => exact lines_prefix (ens_mailbox hV) hx (by decide +kernel) ⟨w₁, w₂, rfl, h1, h2⟩
  | to v => exact lines_prefix (ens_addressList hV) hx (by decide +kernel) ⟨w₁, w₂, rfl, h1, h2⟩
  | cc v => exact lines_prefix (ens_addressList hV) hx (by decide +kernel) ⟨w₁, w₂, rfl, h1, h2⟩
  | bcc v => exact lines_prefix (ens_bcc hV) hx (by decide +kernel) ⟨w₁, w₂, rfl, h1, h2⟩
  | messageId v => exact lines_prefix (ens_messageId hV) hx (by decide +kernel) ⟨w₁, w₂, rfl, h1, h2⟩

theorem lines_traceBlock : Lines (Strings.All V) (TraceBlock c) :=
  lines_bind (lines_opt (lines_header (ens_path hV) (by decide +kernel) (by decide +kernel))) fun _ h1 =>
    lines_bind (lines_plus (lines_header (ens_received hV) (by decide +kernel) (by decide +kernel)))
      fun _ h2 => lines_bind (lines_star (lines_resent hV)) fun _ h3 => lines_pure ⟨h1, h2, h3⟩

theorem lines_field (hu : c.feat.unrecognizedHeaders = true → c.feat.mime = true) :
    Lines (Strings.All V) (FieldG c) := by
  intro w f h
  cases f
  case date => exact lines_header ens_dateTime (by decide +kernel) (by decide +kernel) _ _ h.2
  case «from» => exact lines_header (ens_mailboxList hV) (by decide +kernel) (by decide +kernel) _ _ h.2
  case sender => exact lines_header (ens_mailbox hV) (by decide +kernel) (by decide +kernel) _ _ h.2
  case replyTo => exact lines_header (ens_addressList hV) (by decide +kernel) (by decide +kernel) _ _ h.2
  case to => exact lines_header (ens_addressList hV) (by decide +kernel) (by decide +kernel) _ _ h.2
  case cc => exact lines_header (ens_addressList hV) (by decide +kernel) (by decide +kernel) _ _ h.2
  case bcc => exact lines_header (ens_bcc hV) (by decide +kernel) (by decide +kernel) _ _ h.2
  case messageId => exact lines_header (ens_messageId hV) (by decide +kernel) (by decide +kernel) _ _ h.2
  case inReplyTo =>
    exact lines_header (ens_plus (ens_messageId hV)) (by decide +kernel) (by decide +kernel) _ _ h.2
  case references =>
    exact lines_header (ens_plus (ens_messageId hV)) (by decide +kernel) (by decide +kernel) _ _ h.2
  case subject => exact lines_header (ens_textValue hV id) (by decide +kernel) (by decide +kernel) _ _ h.2
  case comments => exact lines_header (ens_textValue hV id) (by decide +kernel) (by decide +kernel) _ _ h.2
  case keywords =>
    exact lines_header (ens_commaList (ens_phrase hV)) (by decide +kernel) (by decide +kernel) _ _ h.2
  case mimeVersion => exact lines_header ens_mimeVersion (by decide +kernel) (by decide +kernel) _ _ h.2
  case contentType =>
    exact lines_header (ens_contentType hV h.1) (by decide +kernel) (by decide +kernel) _ _ h.2
  case contentTransferEncoding =>
    exact lines_header (ens_transferEncoding hV) (by decide +kernel) (by decide +kernel) _ _ h.2
  case contentId => exact lines_header (ens_messageId hV) (by decide +kernel) (by decide +kernel) _ _ h.2
  case contentDescription =>
    exact lines_header (ens_mimeUnstructured hV h.1) (by decide +kernel) (by decide +kernel) _ _ h.2
  case contentDisposition =>
    exact lines_header (ens_disposition hV h.1) (by decide +kernel) (by decide +kernel) _ _ h.2
  case trace => exact h.elim
  case unknown => exact lines_optionalField hV hu _ _ h

theorem lines_headerBlock (hu : c.feat.unrecognizedHeaders = true → c.feat.mime = true) :
    Lines (Strings.All V) (HeaderBlock c) :=
  lines_bind (P := Strings.All V)
    (by
      unfold TraceBlocks
      split
      · exact lines_star (lines_traceBlock hV)
      · exact lines_pure (by intro v hv; cases hv)) fun _ h1 =>
    lines_bind (lines_star (lines_field hV hu)) fun _ h2 => lines_pure fun v hv => by
      rcases List.mem_append.1 hv with hv | hv
      · exact h1 v hv
      · exact h2 v hv

end

end EmailParser
