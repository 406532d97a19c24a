import Verif.Proofs.Strings
import Verif.Proofs.Complete.PrintMessage
import Verif.Props.Dates
/-
The values of the grammars without encoded words are values that can be written.
-/
namespace EmailParser
open Spec Gram

variable {α β : Type} {c : Cfg}

/-- Every value of `G` satisfies `P`. -/
def Gives (P : α → Prop) (G : Gram α) : Prop := ∀ w v, G w v → P v

section
variable {P : α → Prop} {Q : β → Prop}

theorem Ens.gives {G : Gram α} (h : Ens P G) : Gives P G := fun w v hw => (h w v hw).2

theorem gives_any {G : Gram α} : Gives Any G := fun _ _ _ => trivial

theorem gives_pure {a : α} (h : P a) : Gives P (pure a : Gram α) := by
  rintro w v ⟨rfl, rfl⟩; exact h

theorem gives_bind {G : Gram α} {F : α → Gram β} (hG : Gives P G) (hF : ∀ a, P a → Gives Q (F a)) :
    Gives Q (G >>= F) := by
  rintro w v ⟨w₁, w₂, a, rfl, h1, h2⟩
  exact hF a (hG _ _ h1) _ _ h2

/-- What precedes does not matter. -/
theorem gives_then {G : Gram α} {F : α → Gram β} (hF : ∀ a, Gives Q (F a)) : Gives Q (G >>= F) :=
  gives_bind gives_any fun a _ => hF a

theorem gives_or {G H : Gram α} (hG : Gives P G) (hH : Gives P H) : Gives P (Gram.or G H) :=
  fun w v h => h.elim (hG w v) (hH w v)

theorem gives_map {f : α → β} {G : Gram α} (hG : Gives P G) (h : ∀ a, P a → Q (f a)) :
    Gives Q (Gram.map f G) := by
  rintro w v ⟨a, rfl, ha⟩
  exact h a (hG _ _ ha)

theorem gives_star {G : Gram α} (hG : Gives P G) : Gives (fun l => ∀ v ∈ l, P v) (star G) := by
  intro w l h
  induction h with
  | nil => intro v hv; cases hv
  | cons ha _ ih =>
    intro v hv
    rcases List.mem_cons.1 hv with rfl | hv
    · exact hG _ _ ha
    · exact ih v hv

theorem gives_plus {G : Gram α} (hG : Gives P G) : Gives (fun l => l ≠ [] ∧ ∀ v ∈ l, P v) (plus G) :=
  gives_bind hG fun a ha => gives_bind (gives_star hG) fun as has => gives_pure ⟨by simp, by
    intro v hv
    rcases List.mem_cons.1 hv with rfl | hv
    · exact ha
    · exact has v hv⟩

theorem gives_commaList {G : Gram α} (hG : Gives P G) :
    Gives (fun l => l ≠ [] ∧ ∀ v ∈ l, P v) (CommaList G) :=
  gives_bind hG fun a ha => gives_bind (gives_star (gives_then fun _ => hG)) fun as has => gives_pure ⟨by simp, by
    intro v hv
    rcases List.mem_cons.1 hv with rfl | hv
    · exact ha
    · exact has v hv⟩

theorem gives_opt {G : Gram α} (hG : Gives P G) : Gives (fun o => ∀ v, o = some v → P v) (opt G) := by
  rintro w v (⟨-, rfl⟩ | ⟨a, rfl, h⟩) x hx
  · cases hx
  · cases hx; exact hG _ _ h

theorem gives_headerLine {name : Bytes} {G : Gram α} (hG : Gives P G) : Gives P (HeaderLine name G) :=
  gives_then fun _ => gives_bind hG fun _ h => gives_then fun _ => gives_pure h
end

/-! ### Dot-atoms -/

theorem atext_not_dot : ∀ b : UInt8, atext b = true → (b == 46) = false := by decide +kernel
theorem atext_dtext : ∀ b : UInt8, atext b = true → dtext b = true := by decide +kernel

/-- A run of `atext` after which the text may end. -/
theorem dotAtomFrom_run {a s : Bytes} (ha : ∀ b ∈ a, atext b = true) (seen : Bool) :
    dotAtomFrom seen (a ++ s) = dotAtomFrom (seen || !a.isEmpty) s := by
  induction a generalizing seen with
  | nil => simp
  | cons b a ih =>
    have hb := ha b (by simp)
    simp only [List.cons_append, dotAtomFrom, atext_not_dot b hb, hb, Bool.true_and,
      Bool.false_eq_true, if_false]
    rw [ih (fun x hx => ha x (by simp [hx])) true]
    simp

theorem dotAtomFrom_dots {ps : List Bytes}
    (h : ∀ p ∈ ps, ∃ a, p = b! "." ++ a ∧ a ≠ [] ∧ ∀ b ∈ a, atext b = true) :
    dotAtomFrom true ps.flatten = true := by
  induction ps with
  | nil => rfl
  | cons p ps ih =>
    obtain ⟨a, rfl, hne, ha⟩ := h p (by simp)
    change dotAtomFrom true (46 :: (a ++ ps.flatten)) = true
    simp only [dotAtomFrom, BEq.rfl, if_true, Bool.true_and]
    rw [dotAtomFrom_run ha]
    cases a with
    | nil => exact absurd rfl hne
    | cons => simpa using ih fun q hq => h q (by simp [hq])

theorem dotAtomText_strict : Gives (fun v => dotAtomB v = true) (DotAtomText false) := by
  rintro w v ⟨w₁, w₂, a, rfl, ⟨rfl, hne, ha⟩, w₃, w₄, ps, rfl, hs, rfl, rfl⟩
  have hp : ∀ p ∈ ps, ∃ a, p = b! "." ++ a ∧ a ≠ [] ∧ ∀ b ∈ a, atext b = true := by
    refine gives_star (P := fun p => ∃ a, p = b! "." ++ a ∧ a ≠ [] ∧ ∀ b ∈ a, atext b = true) ?_ _ _ hs
    rintro w v ⟨_, _, _, rfl, -, _, _, x, rfl, ⟨rfl, h1, h2⟩, rfl, rfl⟩
    exact ⟨x, rfl, h1, h2⟩
  unfold dotAtomB
  rw [dotAtomFrom_run ha]
  cases a with
  | nil => exact absurd rfl hne
  | cons => simpa using dotAtomFrom_dots hp

/-- A text that can be written between brackets. -/
def Dtexts (v : Bytes) : Prop := ∀ b ∈ v, dtext b = true

theorem Dtexts.flatten {ws : List Bytes} (h : ∀ w ∈ ws, Dtexts w) : Dtexts ws.flatten := by
  intro b hb
  obtain ⟨w, hw, hb⟩ := List.mem_flatten.1 hb
  exact h w hw b hb

theorem gives_dotPart {lax : Bool} : Gives Dtexts (DotPart lax) := by
  cases lax
  · rintro w v ⟨rfl, -, h⟩ b hb; exact atext_dtext b (h b hb)
  · rintro w v ⟨rfl, h⟩ b hb; exact atext_dtext b (h b hb)

theorem Dtexts.append {u v : Bytes} (hu : Dtexts u) (hv : Dtexts v) : Dtexts (u ++ v) := by
  intro b hb
  exact (List.mem_append.1 hb).elim (hu b) (hv b)

theorem gives_dotAtomText {lax : Bool} : Gives Dtexts (DotAtomText lax) :=
  gives_bind (P := Dtexts) (by rintro w v ⟨rfl, -, h⟩ b hb; exact atext_dtext b (h b hb)) fun _ h =>
    gives_bind (gives_star (gives_then fun _ => gives_bind gives_dotPart fun _ h =>
      gives_pure (P := Dtexts) (Dtexts.append (by unfold Dtexts; decide +kernel) h))) fun _ h' =>
      gives_pure (h.append (.flatten h'))

theorem gives_domain {lax : Bool} : Gives Dtexts (Domain lax) :=
  gives_or
    (gives_then fun _ => gives_bind gives_dotAtomText fun _ h => gives_then fun _ => gives_pure h)
    (gives_then fun _ => gives_then fun _ =>
      gives_bind (gives_star (P := Dtexts) (gives_then fun _ => by rintro w v ⟨rfl, -, h⟩; exact h)) fun _ h =>
        gives_then fun _ => gives_then fun _ => gives_then fun _ => gives_pure (.flatten h))

/-! ### Addresses -/

theorem gives_addrSpec {lax : Bool} : Gives ValidAddress (AddrSpec lax) :=
  gives_bind ens_localPart.gives fun _ h => gives_then fun _ => gives_bind gives_domain fun _ h' =>
    gives_pure ⟨h, .inr h'⟩

theorem gives_angleAddr {lax : Bool} : Gives ValidAddress (AngleAddr lax) :=
  gives_then fun _ => gives_then fun _ => gives_bind gives_addrSpec fun _ h => gives_then fun _ =>
    gives_then fun _ => gives_pure h

theorem gives_messageId : Gives ValidMessageId (MessageId false) :=
  gives_then fun _ => gives_then fun _ => gives_bind dotAtomText_strict fun _ h => gives_then fun _ =>
    gives_bind (P := Dtexts)
      (gives_or gives_dotAtomText (gives_then fun _ => gives_bind (P := Dtexts)
        (by rintro w v ⟨rfl, h⟩; exact h) fun _ h => gives_then fun _ => gives_pure h)) fun _ h' =>
      gives_then fun _ => gives_then fun _ => gives_pure ⟨h, .inr h'⟩

/-! ### Texts -/

theorem wsp_not_vchar : ∀ b : UInt8, vchar b = true → wsp b = false := by decide +kernel

theorem gives_unstructured : Gives (ValidText false) Unstructured := by
  intro w v h
  refine ⟨ens_unstructured.gives w v h, ?_, by simp⟩
  obtain ⟨_, _, parts, -, hs, _, _, _, -, -, -, rfl⟩ := h
  have hp : ∀ p ∈ parts, ∃ u b, p = u ++ [b] ∧ vchar b = true := by
    refine gives_star (P := fun p => ∃ u b, p = u ++ [b] ∧ vchar b = true) ?_ _ _ hs
    rintro w v ⟨_, _, x, -, -, _, _, y, -, ⟨rfl, hne, hy⟩, -, rfl⟩
    refine ⟨x ++ y.dropLast, y.getLast hne, ?_, hy _ (List.getLast_mem hne)⟩
    rw [List.append_assoc, List.dropLast_concat_getLast hne]
  intro u b hu
  rcases List.eq_nil_or_concat parts with rfl | ⟨ps, p, rfl⟩
  · simp at hu
  · obtain ⟨u', b', rfl, hb⟩ := hp p (by simp)
    have : ps.flatten ++ u' ++ [b'] = u ++ [b] := by simpa using hu
    have := List.append_inj_right' this rfl
    cases this
    exact wsp_not_vchar _ hb

section
variable (hm : c.feat.mime = false)
include hm

theorem gives_phraseWord : Gives Spec.Printable (PhraseWord c) := by
  unfold PhraseWord
  rw [hm]
  exact ens_word.gives

theorem gives_phrase : Gives ValidPhrase (Phrase c) := gives_plus (gives_phraseWord hm)

theorem gives_mailbox : Gives ValidMailbox (MailboxG c) :=
  gives_or
    (gives_bind (gives_opt (gives_phrase hm)) fun _ h => gives_bind gives_angleAddr fun _ h' => gives_pure ⟨h, h'⟩)
    (gives_bind gives_addrSpec fun _ h => gives_pure ⟨fun _ hv => (by cases hv), h⟩)

theorem gives_group : Gives (fun v => ValidPhrase v.1 ∧ ∀ m ∈ v.2, ValidMailbox m) (Group c) :=
  gives_bind (gives_phrase hm) fun _ h => gives_then fun _ =>
    gives_bind (P := fun l => ∀ m ∈ l, ValidMailbox m)
      (gives_or (fun w v hv => (gives_commaList (gives_mailbox hm) w v hv).2)
        (gives_then fun _ => gives_pure (by intro v hv; cases hv))) fun _ h' =>
      gives_then fun _ => gives_then fun _ => gives_pure ⟨h, h'⟩

theorem gives_address : Gives ValidAddressOrGroup (AddressG c) :=
  gives_or (gives_map (gives_mailbox hm) fun _ h => h) (gives_map (gives_group hm) fun _ h => h)

theorem gives_addresses : Gives ValidAddresses (AddressList c) := gives_commaList (gives_address hm)

theorem gives_bcc : Gives (fun v => ∀ a ∈ v, ValidAddressOrGroup a) (Bcc c) :=
  gives_or (fun w v h => (gives_addresses hm w v h).2)
    (gives_then fun _ => gives_pure (by intro v hv; cases hv))

theorem gives_text : Gives (ValidText c.feat.mime) (TextValue c.feat.mime c) := by
  unfold TextValue
  rw [hm]
  exact gives_unstructured
end

/-! ### Trace blocks -/

theorem gives_dateTime : Gives InRange DateTimeG := fun _ _ h => dateTime_inRange h

theorem gives_received {lax : Bool} :
    Gives (fun v => (∀ x ∈ v.1, ValidToken x) ∧ InRange v.2) (ReceivedG lax) :=
  gives_bind (gives_star (P := ValidToken) fun w v h => by
    cases v with
    | word x => exact ens_word.gives w x h
    | addr a => exact h.elim (gives_angleAddr w a) (gives_addrSpec w a)
    | domain d => exact .inr (gives_domain w d h)) fun _ h =>
    gives_then fun _ => gives_bind gives_dateTime fun _ h' => gives_pure ⟨h, h'⟩

theorem gives_path {lax : Bool} : Gives (fun v => ∀ a, v = some a → ValidAddress a) (Path lax) :=
  gives_or (gives_map gives_angleAddr fun _ h _ ha => by cases ha; exact h)
    (gives_then fun _ => gives_then fun _ => gives_then fun _ => gives_then fun _ => gives_then fun _ =>
      gives_pure (by intro a ha; cases ha))

section
variable (hm : c.feat.mime = false) (hl : c.feat.compatibilityFixes = false) (hs : 0 < c.stack)
include hm hl hs

theorem gives_resent : Gives (fun v => (resentHeader v).Writable c) (ResentG c) := by
  intro w f h
  refine gives_then (Q := fun v => (resentHeader v).Writable c) (fun _ => ?_) w f h
  intro w f h
  cases f with
  | date v => exact gives_headerLine gives_dateTime w v h
  | «from» v => exact gives_headerLine (gives_commaList (gives_mailbox hm)) w v h
  | sender v => exact gives_headerLine (gives_mailbox hm) w v h
  | to v => exact gives_headerLine (gives_addresses hm) w v h
  | cc v => exact gives_headerLine (gives_addresses hm) w v h
  | bcc v => exact ⟨hs, gives_headerLine (gives_bcc hm) w v h⟩
  | messageId v =>
    have h : HeaderLine (b! "Message-ID:") (MessageId c.feat.compatibilityFixes) w v := h
    rw [hl] at h
    exact gives_headerLine gives_messageId w v h

/-- The block that a field is. -/
def blockOf (t : Option (Option EmailAddress) × List (List ReceivedToken × DateTime) × List TraceField) :
    MailTrace := ⟨t.1, t.2.1, t.2.2⟩

theorem gives_traceBlock : Gives (fun f => ∃ t, traceOf f = some t ∧ (blockOf t).Valid c) (TraceBlock c) :=
  gives_bind (gives_opt (gives_headerLine gives_path)) fun _ h1 =>
    gives_bind (gives_plus (gives_headerLine gives_received)) fun _ h2 =>
      gives_bind (gives_star (gives_resent hm hl hs)) fun _ h3 =>
        gives_pure ⟨_, rfl, fun a ha => h1 _ ha a rfl, h2.1, h2.2, h3⟩

/-! ### Headers -/

/-- The header of which a field is the value, unless it is a trace block or not recognised. -/
def headerFor : Field → Option MailHeader
  | .date v => some (.date v)
  | .from v => some (.from v)
  | .sender v => some (.sender v)
  | .replyTo v => some (.replyTo v)
  | .to v => some (.to v)
  | .cc v => some (.cc v)
  | .bcc v => some (.bcc v)
  | .messageId v => some (.messageId v)
  | .inReplyTo v => some (.inReplyTo v)
  | .references v => some (.references v)
  | .subject v => some (.subject v)
  | .comments v => some (.comments v)
  | .keywords v => some (.keywords v)
  | _ => none

theorem gives_field : Gives (fun f => ∀ h, headerFor f = some h → h.Valid c) (FieldG c) := by
  intro w f hw h hh
  cases f <;> simp only [headerFor, Option.some.injEq, reduceCtorEq] at hh <;> subst hh <;>
    obtain ⟨hf, hw⟩ := hw
  case date v =>
    exact ⟨gives_headerLine gives_dateTime w v hw, by rintro _ ⟨⟩; exact .inl ⟨hf, rfl⟩⟩
  case «from» v =>
    exact ⟨gives_headerLine (gives_commaList (gives_mailbox hm)) w v hw, by
      rintro _ ⟨⟩; simp [Recognized, hf, -String.reduceToList]⟩
  case sender v =>
    exact ⟨gives_headerLine (gives_mailbox hm) w v hw, by rintro _ ⟨⟩; simp [Recognized, hf]⟩
  case replyTo v =>
    exact ⟨gives_headerLine (gives_addresses hm) w v hw, by rintro _ ⟨⟩; simp [Recognized, hf]⟩
  case to v =>
    exact ⟨gives_headerLine (gives_addresses hm) w v hw, by rintro _ ⟨⟩; simp [Recognized, hf]⟩
  case cc v =>
    exact ⟨gives_headerLine (gives_addresses hm) w v hw, by rintro _ ⟨⟩; simp [Recognized, hf]⟩
  case bcc v =>
    exact ⟨⟨hs, gives_headerLine (gives_bcc hm) w v hw⟩, by rintro _ ⟨⟩; simp [Recognized, hf]⟩
  case messageId v =>
    rw [hl] at hw
    exact ⟨gives_headerLine gives_messageId w v hw, by rintro _ ⟨⟩; simp [Recognized, hf]⟩
  case inReplyTo v =>
    rw [hl] at hw
    exact ⟨gives_headerLine (gives_plus gives_messageId) w v hw, by rintro _ ⟨⟩; simp [Recognized, hf]⟩
  case «references» v =>
    rw [hl] at hw
    exact ⟨gives_headerLine (gives_plus gives_messageId) w v hw, by rintro _ ⟨⟩; simp [Recognized, hf]⟩
  case subject v =>
    exact ⟨gives_headerLine (gives_text hm) w v hw, by rintro _ ⟨⟩; simp [Recognized, hf]⟩
  case comments v =>
    exact ⟨gives_headerLine (gives_text hm) w v hw, by rintro _ ⟨⟩; simp [Recognized, hf]⟩
  case keywords v =>
    exact ⟨gives_headerLine (gives_commaList (gives_phrase hm)) w v hw, by
      rintro _ ⟨⟩; simp [Recognized, hf]⟩
end

/-! ### Consecutive trace blocks -/

theorem manyLoop_stop {p : Bytes → Res α} : ∀ {n : Nat} {i r : Bytes} {l : List α},
    manyLoop p n i = .ok (r, l) → ∃ e, p r = .err e
  | 0, _, _, _, h => by cases h
  | n + 1, i, r, l, h => by
    unfold manyLoop at h
    split at h
    · obtain ⟨⟨r', l'⟩, h1, h2⟩ := bind_eq_ok.1 h
      cases h2
      exact manyLoop_stop h1
    · rename_i e he
      cases h
      exact ⟨e, he⟩
    · cases h

/-- After a block without resent headers there is no `Received` header. -/
theorem traceBlock_stop {i r : Bytes} {f : Field} (h : traceBlock c i = .ok (r, f)) :
    ∃ a b d, f = .trace a b d ∧ (d = [] → ∃ e, received c r = .err e) ∧
      (a = none → ∃ x, received c i = .ok x) := by
  unfold traceBlock at h
  obtain ⟨⟨r1, a, b⟩, h1, h⟩ := bind_eq_ok.1 h
  obtain ⟨⟨r2, d⟩, h2, h⟩ := bind_eq_ok.1 h
  cases h
  refine ⟨a, b, d, rfl, ?_, ?_⟩
  · rintro rfl
    unfold trace at h1
    obtain ⟨⟨r3, _⟩, -, h1⟩ := bind_eq_ok.1 h1
    obtain ⟨⟨r4, _⟩, h3, h1⟩ := bind_eq_ok.1 h1
    cases h1
    unfold many1 at h3
    obtain ⟨⟨r5, _⟩, -, h3⟩ := bind_eq_ok.1 h3
    obtain ⟨⟨r6, _⟩, h4, h3⟩ := bind_eq_ok.1 h3
    cases h3
    have : r = r1 := by
      unfold many manyLoop at h2
      dsimp only at h2
      split at h2
      · obtain ⟨⟨_, _⟩, -, h2⟩ := bind_eq_ok.1 h2
        cases h2
      · cases h2; rfl
      · cases h2
    subst this
    exact manyLoop_stop h4
  · rintro rfl
    unfold trace at h1
    obtain ⟨⟨r3, o⟩, h0, h1⟩ := bind_eq_ok.1 h1
    obtain ⟨⟨r4, _⟩, h3, h1⟩ := bind_eq_ok.1 h1
    cases h1
    unfold many1 at h3
    obtain ⟨⟨r5, _⟩, h5, h3⟩ := bind_eq_ok.1 h3
    have : r3 = i := by
      unfold optional at h0
      split at h0 <;> cases h0
      rfl
    subst this
    exact ⟨_, h5⟩

theorem blocks_separated : ∀ {n : Nat} {i r : Bytes} {fs : List Field},
    manyLoop (traceBlock c) n i = .ok (r, fs) →
      Separated ((fs.filterMap traceOf).map blockOf) ∧
      ∀ f fs', fs = f :: fs' → ∃ a b d, f = .trace a b d ∧ (a = none → ∃ x, received c i = .ok x)
  | 0, _, _, _, h => by cases h
  | n + 1, i, r, fs, h => by
    unfold manyLoop at h
    split at h
    · rename_i r' f hf
      obtain ⟨⟨r'', fs'⟩, h1, h2⟩ := bind_eq_ok.1 h
      cases h2
      obtain ⟨a, b, d, rfl, hd, ha⟩ := traceBlock_stop hf
      obtain ⟨hs, hh⟩ := blocks_separated h1
      refine ⟨?_, by rintro f fs' ⟨⟩; exact ⟨a, b, d, rfl, ha⟩⟩
      cases fs' with
      | nil => trivial
      | cons g fs' =>
        obtain ⟨a', b', d', rfl, ha'⟩ := hh g fs' rfl
        refine ⟨fun hd' hn => ?_, hs⟩
        obtain ⟨e, he⟩ := hd hd'
        obtain ⟨x, hx⟩ := ha' hn
        rw [hx] at he
        cases he
    · cases h
      exact ⟨trivial, by rintro f fs' ⟨⟩⟩
    · cases h

end EmailParser
