import Verif.Spec.NormalMime
import Verif.Proofs.Normal
import Verif.Props.Strings
import Verif.Props.Unicode
/-
The values of the grammars, with MIME, are values that can be written.
-/
namespace EmailParser
open Spec Gram

variable {α β : Type} {c : Cfg}

/-! ### Words and texts -/

theorem gives_unicodeWord : Gives (UnicodeWord c.feat.mime) (PhraseWord c) := by
  unfold PhraseWord
  split
  · rename_i hm
    exact gives_or (gives_then fun _ w v h => .inr ⟨hm, (ens_encodedWord (strOk_utf8 c) hm w v h).2⟩)
      (fun w v h => .inl (ens_word.gives w v h))
  · exact fun w v h => .inl (ens_word.gives w v h)

theorem gives_unicodePhrase : Gives (UnicodePhrase c.feat.mime) (Phrase c) := gives_plus gives_unicodeWord

theorem gives_unicodeMailbox : Gives (UnicodeMailbox c.feat.mime) (MailboxG c) :=
  gives_or
    (gives_bind (gives_opt gives_unicodePhrase) fun _ h => gives_bind gives_angleAddr fun _ h' => gives_pure ⟨h, h'⟩)
    (gives_bind gives_addrSpec fun _ h => gives_pure ⟨fun _ hv => (by cases hv), h⟩)

theorem gives_unicodeGroup :
    Gives (fun v => UnicodePhrase c.feat.mime v.1 ∧ ∀ m ∈ v.2, UnicodeMailbox c.feat.mime m) (Group c) :=
  gives_bind gives_unicodePhrase fun _ h => gives_then fun _ =>
    gives_bind (P := fun l => ∀ m ∈ l, UnicodeMailbox c.feat.mime m)
      (gives_or (fun w v hv => (gives_commaList gives_unicodeMailbox w v hv).2)
        (gives_then fun _ => gives_pure (by intro v hv; cases hv))) fun _ h' =>
      gives_then fun _ => gives_then fun _ => gives_pure ⟨h, h'⟩

theorem gives_unicodeAddress : Gives (UnicodeAddress c.feat.mime) (AddressG c) :=
  gives_or (gives_map gives_unicodeMailbox fun _ h => h) (gives_map gives_unicodeGroup fun _ h => h)

theorem gives_unicodeAddresses : Gives (fun v => v ≠ [] ∧ ∀ a ∈ v, UnicodeAddress c.feat.mime a) (AddressList c) :=
  gives_commaList gives_unicodeAddress

theorem gives_unicodeBcc : Gives (fun v => ∀ a ∈ v, UnicodeAddress c.feat.mime a) (Bcc c) :=
  gives_or (fun w v h => (gives_unicodeAddresses w v h).2)
    (gives_then fun _ => gives_pure (by intro v hv; cases hv))

theorem gives_unicodeText {mime : Bool} (hm : mime = true → c.feat.mime = true) :
    Gives (UnicodeText mime) (TextValue mime c) := by
  unfold TextValue UnicodeText
  split
  · rename_i h
    exact (ens_mimeUnstructured (strOk_utf8 c) (hm h)).gives
  · exact gives_unstructured

/-! ### Identifiers -/

theorem star_self {G : Gram Bytes} (hG : ∀ w v, G w v → v = w) {w : Bytes} {vs : List Bytes} (h : star G w vs) :
    vs.flatten = w := by
  induction h with
  | nil => rfl
  | cons h _ ih => rw [List.flatten_cons, ih, hG _ _ h]

theorem dotAtomText_self {lax : Bool} {w v : Bytes} (h : DotAtomText lax w v) : v = w := by
  obtain ⟨w₁, w₂, a, rfl, ⟨rfl, -, -⟩, w₃, w₄, ps, rfl, hs, rfl, rfl⟩ := h
  rw [star_self ?_ hs, List.append_nil]
  rintro w v ⟨_, _, _, rfl, rfl, _, _, x, rfl, hx, rfl, rfl⟩
  unfold DotPart at hx
  split at hx <;> obtain ⟨rfl, -⟩ := hx <;> simp

theorem gives_unicodeId {lax : Bool} : Gives (UnicodeId lax) (MessageId lax) :=
  gives_then fun _ => gives_then fun _ =>
    gives_bind (P := fun v => DotAtomText lax v v) (fun w v h => by cases dotAtomText_self h; exact h) fun _ h =>
      gives_then fun _ => gives_bind (P := Dtexts)
        (gives_or gives_dotAtomText (gives_then fun _ => gives_bind (P := Dtexts)
          (by rintro w v ⟨rfl, h⟩; exact h) fun _ h => gives_then fun _ => gives_pure h)) fun _ h' =>
        gives_then fun _ => gives_then fun _ => gives_pure ⟨h, h'⟩

/-! ### Names -/

theorem lower_lower (w : Bytes) : (w.map asciiLower).map asciiLower = w.map asciiLower := by
  rw [List.map_map]
  refine List.map_congr_left fun b _ => ?_
  exact (by decide +kernel : ∀ b : UInt8, asciiLower (asciiLower b) = asciiLower b) b

theorem tokenChar_lower (b : UInt8) : tokenChar (asciiLower b) = tokenChar b :=
  (by decide +kernel : ∀ b : UInt8, tokenChar (asciiLower b) = tokenChar b) b

theorem lower_digit (b : UInt8) (h : Spec.digit (asciiLower b) = true) : asciiLower b = b :=
  (by decide +kernel : ∀ b : UInt8, Spec.digit (asciiLower b) = true → asciiLower b = b) b h

theorem lower_star (b : UInt8) (h : asciiLower b = 42) : b = 42 :=
  (by decide +kernel : ∀ b : UInt8, asciiLower b = 42 → b = 42) b h

theorem tokens_lower {w : Bytes} (h : ∀ b ∈ w, tokenChar b = true) : ∀ b ∈ w.map asciiLower, tokenChar b = true := by
  intro b hb
  obtain ⟨x, hx, rfl⟩ := List.mem_map.1 hb
  rw [tokenChar_lower]
  exact h x hx

/-- A name in lower case has the form of RFC 2231 only if the name has. -/
theorem extendedName_lower {w : Bytes} {v : Bytes × Option Nat × Bool} (h : ExtendedName (w.map asciiLower) v) :
    ∃ v', ExtendedName w v' := by
  obtain ⟨u₁, u', name, e₁, ⟨rfl, hne, hn⟩, u₂, u₃, index, rfl, h₂, h₃⟩ := h
  obtain ⟨w₁, w', rfl, rfl, e₂⟩ := List.map_eq_append_iff.1 e₁
  obtain ⟨w₂, w₃, rfl, rfl, rfl⟩ := List.map_eq_append_iff.1 e₂
  obtain ⟨enc, ⟨o, rfl, h₄⟩, rfl⟩ := gram_bind_pure.mp h₃
  have single : ∀ {w : Bytes}, w.map asciiLower = b! "*" → w = b! "*" := by
    intro w hw
    obtain ⟨b, _, rfl, hb, hr⟩ := List.map_eq_cons_iff.1 hw
    rw [lower_star b hb, List.map_eq_nil_iff.1 hr]
  have h₂' : opt (do lit (b! "*"); U8Number) w₂ index := by
    rcases h₂ with ⟨e, rfl⟩ | ⟨n, rfl, x₁, x₂, _, e, rfl, h⟩
    · exact .inl ⟨by simpa using e, rfl⟩
    · obtain ⟨y₁, y₂, rfl, ey, rfl⟩ := List.map_eq_append_iff.1 e
      refine .inr ⟨n, rfl, y₁, y₂, (), rfl, single ey, ?_⟩
      obtain ⟨⟨d, rfl, rfl, hd1, hd2⟩, hlt⟩ := h
      have : y₂.map asciiLower = y₂ := by
        conv => rhs; rw [← List.map_id y₂]
        refine List.map_congr_left fun b hb => lower_digit b (hd2 _ (List.mem_map_of_mem hb))
      rw [this] at hd1 hd2 hlt ⊢
      exact ⟨⟨y₂, rfl, rfl, hd1, hd2⟩, hlt⟩
  have h₃' : opt (lit (b! "*")) w₃ o := by
    rcases h₄ with ⟨e, rfl⟩ | ⟨a, rfl, e⟩
    · exact .inl ⟨by simpa using e, rfl⟩
    · exact .inr ⟨a, rfl, single e⟩
  refine ⟨(w₁, index, o.isSome), w₁, w₂ ++ w₃, w₁, rfl, ⟨rfl, ?_, ?_⟩, w₂, w₃, index, rfl, h₂', ?_⟩
  · intro e; rw [e] at hne; exact hne rfl
  · intro b hb
    have := hn (asciiLower b) (List.mem_map_of_mem hb)
    simp only [tokenChar_lower, Bool.and_eq_true, bne_iff_ne, ne_eq] at this ⊢
    exact ⟨this.1, fun e => this.2 (by rw [e]; decide)⟩
  · exact gram_bind_pure.mpr ⟨_, ⟨o, rfl, h₃'⟩, rfl⟩

/-- What is known about a parameter. -/
structure RawGood (p : RawParam) : Prop where
  lower : p.name.map asciiLower = p.name
  nonempty : p.name ≠ []
  token : ∀ b ∈ p.name, tokenChar b = true
  value : Spec.Printable p.value
  star : 42 ∈ p.name → p.index = none ∧ ∀ v, ¬ ExtendedName p.name v

theorem gives_rawGood : Gives RawGood Parameter :=
  gives_then fun _ => gives_then fun _ => gives_then fun _ =>
    gives_bind (P := fun v => v.1 ≠ [] ∧ (∀ b ∈ v.1, tokenChar b = true) ∧
        (42 ∈ v.1 → v.2.1 = none ∧ ∀ v', ¬ ExtendedName v.1 v'))
      (by
        rintro w v (⟨w₁, _, name, rfl, ⟨rfl, hne, hn⟩, w₂, w₃, index, rfl, -, h₃⟩ | ⟨h1, ⟨-, h2, h3⟩, rfl⟩)
        · obtain ⟨e, -, rfl⟩ := gram_bind_pure.mp h₃
          refine ⟨hne, fun b hb => ?_, fun h => ?_⟩
          · have := hn b hb
            simp only [Bool.and_eq_true] at this
            exact this.1
          · have := hn 42 h
            simp at this
        · exact ⟨h2, h3, fun _ => ⟨rfl, h1⟩⟩) fun v h => by
      obtain ⟨name, index, encoded⟩ := v
      exact gives_then fun _ => gives_bind ens_paramText.gives fun _ hv => gives_pure
        { lower := lower_lower _
          nonempty := by simpa using h.1
          token := tokens_lower h.2.1
          value := hv
          star := fun hs => by
            obtain ⟨b, hb, e⟩ := List.mem_map.1 hs
            rw [lower_star b e] at hb
            refine ⟨(h.2.2 hb).1, fun v hv => ?_⟩
            obtain ⟨v', hv'⟩ := extendedName_lower hv
            exact (h.2.2 hb).2 v' hv' }

/-- What is known about the parameters of a header. -/
structure ParamsGood (p : Params) : Prop where
  each : ∀ n v, p n = some v → n.map asciiLower = n ∧ n ≠ [] ∧ (∀ b ∈ n, tokenChar b = true) ∧ Utf8 v ∧
    (42 ∈ n → Spec.Printable v ∧ ∀ v, ¬ ExtendedName n v)
  listed : ∃ names, Listed names p

theorem collected_good (hm : c.feat.mime = true) {ps : List RawParam} (hp : ∀ p ∈ ps, RawGood p) {w : Bytes}
    {p : Params} (h : Collected c ps w p) : ParamsGood p := by
  obtain ⟨-, h⟩ := h
  have raw : ∀ p ∈ ps, RawOk p := fun p hx =>
    ⟨fun b hb => .inl ((by decide +kernel : ∀ b : UInt8, tokenChar b = true → vchar b = true) b ((hp p hx).token b hb)),
      (hp p hx).value⟩
  have found : ∀ n v, p n = some v → ∃ q ∈ ps, q.name = n ∧ (42 ∈ n → Spec.Printable v) := by
    intro n v hv
    have hn := h n
    unfold ParamValue at hn
    rw [hv] at hn
    split at hn
    · obtain ⟨q, hq, rfl⟩ := Option.map_eq_some_iff.1 hn.symm
      obtain ⟨h1, h2⟩ := lastWith_mem_of hq
      simp only [Bool.and_eq_true, beq_iff_eq] at h2
      exact ⟨q, h1, h2.1, fun _ => (hp q h1).value⟩
    · rename_i q hq
      obtain ⟨h1, h2⟩ := lastWith_mem_of hq
      simp only [Bool.and_eq_true, beq_iff_eq] at h2
      refine ⟨q, h1, h2.1, fun hs => ?_⟩
      have := ((hp q h1).star (h2.1.symm ▸ hs)).1
      rw [this] at h2
      cases h2.2
  refine ⟨fun n v hv => ?_, ps.map (·.name), fun n hn => ?_⟩
  · obtain ⟨q, hq, rfl, hs⟩ := found n v hv
    have := hp q hq
    refine ⟨this.lower, this.nonempty, this.token, (paramValue_all (strOk_utf8 c) hm raw (h q.name) hv).2, fun h => ?_⟩
    exact ⟨hs h, (this.star h).2⟩
  · cases hx : p n with
    | none => exact absurd hx hn
    | some v =>
      obtain ⟨q, hq, rfl, -⟩ := found n v hx
      exact List.mem_map_of_mem hq

/-- The parameters as they are listed. -/
theorem mem_paramsAt {names : List Bytes} {p : Params} {x : Bytes × Bytes} :
    x ∈ paramsAt names p ↔ x.1 ∈ names ∧ p x.1 = some x.2 := by
  unfold paramsAt
  rw [List.mem_filterMap]
  constructor
  · rintro ⟨n, hn, h⟩
    obtain ⟨v, hv, rfl⟩ := Option.map_eq_some_iff.1 h
    exact ⟨hn, hv⟩
  · rintro ⟨h1, h2⟩
    exact ⟨x.1, h1, by rw [h2]; rfl⟩

theorem paramsAt_unicode {names : List Bytes} {p : Params} (hp : ParamsGood p) : UnicodeParams (paramsAt names p) := by
  refine ⟨fun x hx => (hp.each _ _ (mem_paramsAt.1 hx).2).2, fun x hx y hy e => ?_⟩
  have h1 := (mem_paramsAt.1 hx).2
  have h2 := (mem_paramsAt.1 hy).2
  rw [(hp.each _ _ h1).1, (hp.each _ _ h2).1] at e
  rw [e, h2] at h1
  exact (Option.some.inj h1).symm

theorem paramsAt_value {names : List Bytes} {p : Params} (hp : ParamsGood p) (hn : Listed names p) :
    lastValue (paramsAt names p) = p := by
  funext n
  unfold lastValue
  cases hl : lastWith (fun x => x.1.map asciiLower == n) (paramsAt names p) with
  | none =>
    cases hx : p n with
    | none => rfl
    | some v =>
      have hmem : (n, v) ∈ paramsAt names p := mem_paramsAt.2 ⟨hn n (by simp [hx]), hx⟩
      unfold lastWith at hl
      rw [List.getLast?_eq_none_iff, List.filter_eq_nil_iff] at hl
      exact absurd (by simp [(hp.each n v hx).1]) (hl _ hmem)
  | some x =>
    obtain ⟨h1, h2⟩ := lastWith_mem_of hl
    have h3 := (mem_paramsAt.1 h1).2
    rw [beq_iff_eq, (hp.each _ _ h3).1] at h2
    subst h2
    exact h3.symm

/-! ### Types -/

/-- A name that can be written, and what it says. -/
theorem namedOr_good {table : List (Bytes × α)} {other : Bytes → α} {nameOf : α → Bytes}
    (h1 : ∀ e ∈ table, nameOf e.2 = e.1 ∧ e.1.map asciiLower = e.1 ∧ e.1 ≠ [] ∧ (∀ b ∈ e.1, tokenChar b = true) ∧
      table.lookup e.1 = some e.2)
    (h2 : ∀ n, nameOf (other n) = n) :
    Gives (fun v => ValidName table (nameOf v) ∧ named table other (nameOf v) = v) (NamedOr table other) := by
  rintro w v (⟨s, hs, hw⟩ | ⟨⟨-, hne, ht⟩, hn, rfl⟩)
  · obtain ⟨e1, e2, e3, e4, e5⟩ := h1 _ hs
    dsimp only at e1 e2 e3 e4 e5
    refine ⟨⟨e1 ▸ e3, e1 ▸ e4, .inl ?_⟩, ?_⟩
    · rw [e1, e2]
      exact List.mem_map_of_mem hs
    · unfold named
      rw [e1, e2, e5]
      rfl
  · rw [h2]
    refine ⟨⟨by simpa using hne, tokens_lower ht, .inr ?_⟩, ?_⟩
    · rw [lower_lower]
      exact hn
    · unfold named
      rw [lower_lower]
      cases hl : table.lookup (w.map asciiLower) with
      | none => rfl
      | some x =>
        obtain ⟨l₁, l₂, e, -⟩ := List.lookup_eq_some_iff.1 hl
        exact absurd (List.prefix_refl _) (hn (w.map asciiLower, x) (by rw [e]; simp))

theorem gives_typeName :
    Gives (fun v => ValidName typeNames (typeName v) ∧ named typeNames .unknown (typeName v) = v)
      (NamedOr typeNames .unknown) :=
  namedOr_good (by
    intro e he
    simp only [typeNames, List.mem_cons, List.not_mem_nil, or_false] at he
    rcases he with rfl | rfl | rfl | rfl | rfl | rfl | rfl <;> decide +kernel) fun _ => rfl

theorem gives_dispositionName :
    Gives (fun v => ValidName dispositionNames (dispositionName v) ∧
      named dispositionNames .unknown (dispositionName v) = v) (NamedOr dispositionNames .unknown) :=
  namedOr_good (by
    intro e he
    simp only [dispositionNames, List.mem_cons, List.not_mem_nil, or_false] at he
    rcases he with rfl | rfl <;> decide +kernel) fun _ => rfl

/-- What is known about a content type. -/
structure TypeGood (v : ContentType × Bytes × Params) : Prop where
  name : ValidName typeNames (typeName v.1)
  type : named typeNames .unknown (typeName v.1) = v.1
  subtype : v.2.1 ≠ [] ∧ ∀ b ∈ v.2.1, tokenChar b = true
  lower : v.2.1.map asciiLower = v.2.1
  params : ParamsGood v.2.2

theorem gives_typeGood (hm : c.feat.mime = true) : Gives TypeGood (ContentTypeG c) :=
  gives_then fun _ => gives_bind gives_typeName fun _ h1 => gives_then fun _ =>
    gives_bind (P := fun s => s ≠ [] ∧ ∀ b ∈ s, tokenChar b = true) (by rintro w v ⟨rfl, h⟩; exact h) fun _ h2 =>
      gives_bind (gives_star gives_rawGood) fun _ h3 =>
        gives_bind (P := ParamsGood) (fun _ _ h => collected_good hm h3 h) fun _ h4 => gives_then fun _ =>
          gives_pure ⟨h1.1, h1.2, ⟨by simpa using h2.1, tokens_lower h2.2⟩, lower_lower _, h4⟩

theorem plainText_good : TypeGood plainText where
  name := by unfold ValidName; decide +kernel
  type := by decide +kernel
  subtype := by decide +kernel
  lower := by decide +kernel
  params := by
    refine ⟨fun n v h => ?_, [b! "charset"], fun n h => ?_⟩
    · simp only [plainText] at h
      split at h <;> cases h
      rename_i e
      subst e
      exact ⟨by decide +kernel, by decide +kernel, by decide +kernel, utf8_of (by decide +kernel), fun h =>
        absurd h (by decide +kernel)⟩
    · simp only [plainText] at h
      split at h
      · rename_i e; simp [e]
      · exact absurd rfl h

/-- What is known about a disposition. -/
structure DispositionGood (d : Disposition) : Prop where
  name : ValidName dispositionNames (dispositionName d.dispositionType)
  type : named dispositionNames .unknown (dispositionName d.dispositionType) = d.dispositionType
  filename : ∀ x ∈ d.filename, Spec.Printable x
  creation : ∀ x ∈ d.creationDate, InRange x
  modification : ∀ x ∈ d.modificationDate, InRange x
  read : ∀ x ∈ d.readDate, InRange x
  params : ParamsGood d.unstructured

/-- What is known about a parameter of a disposition. -/
def ItemGood : DispositionItem → Prop
  | .filename v => Spec.Printable v
  | .creationDate d => InRange d
  | .modificationDate d => InRange d
  | .readDate d => InRange d
  | .parameter p => RawGood p

theorem gives_dateParam {name : Bytes} : Gives InRange (DateParam name) :=
  gives_then fun _ => gives_then fun _ => gives_then fun _ => gives_then fun _ => gives_then fun _ =>
    gives_bind gives_dateTime fun _ h => gives_then fun _ => gives_pure h

theorem gives_item : Gives ItemGood DispositionParam := by
  rintro w v (⟨x, rfl, h⟩ | ⟨x, rfl, h⟩ | ⟨x, rfl, h⟩ | ⟨x, rfl, h⟩ | ⟨x, rfl, h, -⟩)
  · exact gives_then (Q := Spec.Printable) (fun _ => gives_then fun _ => gives_then fun _ => gives_then fun _ =>
      gives_then fun _ => ens_paramText.gives) w x h
  · exact gives_dateParam w x h
  · exact gives_dateParam w x h
  · exact gives_dateParam w x h
  · exact gives_rawGood w x h

theorem gives_dispositionGood (hm : c.feat.mime = true) : Gives DispositionGood (DispositionG c) :=
  gives_then fun _ => gives_bind gives_dispositionName fun _ h1 => gives_bind (gives_star gives_item) fun items h2 =>
    gives_bind (P := ParamsGood) (fun _ _ h => collected_good hm (by
      intro p hp
      obtain ⟨x, hx, e⟩ := List.mem_filterMap.1 hp
      have := h2 x hx
      cases x <;> cases e
      exact this) h) fun _ h4 => gives_then fun _ => gives_pure (by
        have last : ∀ {β : Type} {g : DispositionItem → Option β} {x : β}, (items.filterMap g).getLast? = some x →
            ∃ y, ItemGood y ∧ g y = some x := by
          intro β g x h
          obtain ⟨y, hy, e⟩ := List.mem_filterMap.1 (List.mem_of_getLast? h)
          exact ⟨y, h2 y hy, e⟩
        refine ⟨h1.1, h1.2, ?_, ?_, ?_, ?_, h4⟩ <;>
        · intro x hx
          obtain ⟨y, hy, e⟩ := last hx
          cases y <;> cases e
          exact hy)

/-! ### Trace blocks -/

section
variable (hs : 0 < c.stack)
include hs

theorem gives_unicodeResent : Gives (fun v => (resentHeader v).Encodable c) (ResentG c) := by
  intro w f h
  refine gives_then (Q := fun v => (resentHeader v).Encodable c) (fun _ => ?_) w f h
  intro w f h
  cases f with
  | date v => exact gives_headerLine gives_dateTime w v h
  | «from» v => exact gives_headerLine (gives_commaList gives_unicodeMailbox) w v h
  | sender v => exact gives_headerLine gives_unicodeMailbox w v h
  | to v => exact gives_headerLine gives_unicodeAddresses w v h
  | cc v => exact gives_headerLine gives_unicodeAddresses w v h
  | bcc v => exact ⟨hs, gives_headerLine gives_unicodeBcc w v h⟩
  | messageId v => exact gives_headerLine gives_unicodeId w v h

theorem gives_unicodeTrace : Gives (fun f => ∃ t, traceOf f = some t ∧ (blockOf t).Encodable c) (TraceBlock c) :=
  gives_bind (gives_opt (gives_headerLine gives_path)) fun _ h1 =>
    gives_bind (gives_plus (gives_headerLine gives_received)) fun _ h2 =>
      gives_bind (gives_star (gives_unicodeResent hs)) fun _ h3 =>
        gives_pure ⟨_, rfl, fun a ha => h1 _ ha a rfl, h2.1, h2.2, h3⟩

/-! ### Headers -/

/-- A header that can be written and is recognised. -/
def Written (c : Cfg) (h : MailHeader) : Prop :=
  h.Encodable c ∧ ∀ name, headerOf h.field = some name → Recognized c.feat name

theorem gives_unicodeField : Gives (fun f => ∀ h, headerFor f = some h → Written c h) (FieldG c) := by
  intro w f hw h hh
  cases f <;> simp only [headerFor, Option.some.injEq, reduceCtorEq] at hh <;> subst hh <;>
    obtain ⟨hf, hw⟩ := hw
  case date v =>
    exact ⟨gives_headerLine gives_dateTime w v hw, by rintro _ ⟨⟩; exact .inl ⟨hf, rfl⟩⟩
  case «from» v =>
    exact ⟨gives_headerLine (gives_commaList gives_unicodeMailbox) w v hw, by
      rintro _ ⟨⟩; simp [Recognized, hf, -String.reduceToList]⟩
  case sender v =>
    exact ⟨gives_headerLine gives_unicodeMailbox w v hw, by rintro _ ⟨⟩; simp [Recognized, hf]⟩
  case replyTo v =>
    exact ⟨gives_headerLine gives_unicodeAddresses w v hw, by rintro _ ⟨⟩; simp [Recognized, hf]⟩
  case to v =>
    exact ⟨gives_headerLine gives_unicodeAddresses w v hw, by rintro _ ⟨⟩; simp [Recognized, hf]⟩
  case cc v =>
    exact ⟨gives_headerLine gives_unicodeAddresses w v hw, by rintro _ ⟨⟩; simp [Recognized, hf]⟩
  case bcc v =>
    exact ⟨⟨hs, gives_headerLine gives_unicodeBcc w v hw⟩, by rintro _ ⟨⟩; simp [Recognized, hf]⟩
  case messageId v =>
    exact ⟨gives_headerLine gives_unicodeId w v hw, by rintro _ ⟨⟩; simp [Recognized, hf]⟩
  case inReplyTo v =>
    exact ⟨gives_headerLine (gives_plus gives_unicodeId) w v hw, by rintro _ ⟨⟩; simp [Recognized, hf]⟩
  case «references» v =>
    exact ⟨gives_headerLine (gives_plus gives_unicodeId) w v hw, by rintro _ ⟨⟩; simp [Recognized, hf]⟩
  case subject v =>
    exact ⟨gives_headerLine (gives_unicodeText id) w v hw, by rintro _ ⟨⟩; simp [Recognized, hf]⟩
  case comments v =>
    exact ⟨gives_headerLine (gives_unicodeText id) w v hw, by rintro _ ⟨⟩; simp [Recognized, hf]⟩
  case keywords v =>
    exact ⟨gives_headerLine (gives_commaList gives_unicodePhrase) w v hw, by
      rintro _ ⟨⟩; simp [Recognized, hf]⟩

/-- What is known about the MIME headers. -/
structure MimeGood (c : Cfg) (f : Field) : Prop where
  type : ∀ v, contentTypeOf f = some v → TypeGood v
  id : ∀ v, contentIdOf f = some v → UnicodeId c.feat.compatibilityFixes v
  description : ∀ v, contentDescriptionOf f = some v → Utf8 v
  disposition : ∀ v, contentDispositionOf f = some v → DispositionGood v

omit hs in
theorem mimeGood_trace {f : Field} {t} (h : traceOf f = some t) : MimeGood c f := by
  cases f <;> simp only [traceOf, reduceCtorEq] at h
  constructor <;> (intro v hv; cases hv)

omit hs in
theorem gives_mimeField : Gives (MimeGood c) (FieldG c) := by
  intro w f hw
  constructor <;> intro v hv <;> cases f <;> cases hv <;> obtain ⟨hm, hw⟩ := hw
  · exact gives_headerLine (gives_typeGood hm) w _ hw
  · exact gives_headerLine gives_unicodeId w _ hw
  · exact gives_headerLine (ens_mimeUnstructured (strOk_utf8 c) hm).gives w _ hw
  · exact gives_headerLine (gives_dispositionGood hm) w _ hw

omit hs in
theorem gives_unicodeOptional (hc : c.feat.compiles) :
    Gives (fun v => v.1 ≠ [] ∧ (∀ b ∈ v.1, ftext b = true) ∧ UnicodeText c.feat.unrecognizedHeaders v.2)
      (OptionalField c) :=
  gives_bind (P := fun n => n ≠ [] ∧ ∀ b ∈ n, ftext b = true) (by rintro w v ⟨rfl, h⟩; exact h) fun _ h =>
    gives_then fun _ => gives_bind (gives_unicodeText hc.2) fun _ h' =>
      gives_then fun _ => gives_pure ⟨h.1, h.2, h'⟩

/-- What is known about the fields of a message. -/
structure Understood (c : Cfg) (fs : List Field) : Prop where
  headers : ∀ f ∈ fs, ∀ h, headerFor f = some h → Written c h
  mime : ∀ f ∈ fs, MimeGood c f
  others : ∀ f ∈ fs, ∀ v, unknownOf f = some v →
    v.1 ≠ [] ∧ (∀ b ∈ v.1, ftext b = true) ∧ UnicodeText c.feat.unrecognizedHeaders v.2
  traces : ∀ f ∈ fs, ∀ t, traceOf f = some t → c.feat.trace = true ∧ (blockOf t).Encodable c
  separated : Separated ((fs.filterMap traceOf).map blockOf)

theorem understood_of (hc : c.feat.compiles) {i r : Bytes} {fs : List Field} (h : fields c i = .ok (r, fs)) :
    Understood c fs := by
  unfold fields at h
  obtain ⟨⟨r1, ts⟩, h1, h⟩ := bind_eq_ok.1 h
  obtain ⟨⟨r2, us⟩, h2, h⟩ := bind_eq_ok.1 h
  cases h
  obtain ⟨w1, -, g1⟩ := (traces_parses (c := c) i).of_ok h1
  obtain ⟨w2, -, g2⟩ := (many_parses field_progress (field_parses (c := c)) r1).of_ok h2
  have ht : ∀ f ∈ ts, c.feat.trace = true ∧ ∃ t, traceOf f = some t ∧ (blockOf t).Encodable c := by
    intro f hf
    unfold TraceBlocks at g1
    split at g1
    · rename_i h
      exact ⟨h, gives_star (gives_unicodeTrace hs) _ _ g1 f hf⟩
    · obtain ⟨-, rfl⟩ := g1; cases hf
  have hus : ∀ f ∈ us, ∃ w, FieldG c w f := gives_star (P := fun f => ∃ w, FieldG c w f) (fun w _ h => ⟨w, h⟩) _ _ g2
  refine ⟨?_, ?_, ?_, ?_, ?_⟩
  · intro f hf x hx
    rcases List.mem_append.1 hf with hf | hf
    · obtain ⟨-, t, ht, -⟩ := ht f hf
      cases f <;> simp [traceOf, headerFor] at ht hx
    · obtain ⟨w, hw⟩ := hus f hf
      exact gives_unicodeField hs w f hw x hx
  · intro f hf
    rcases List.mem_append.1 hf with hf | hf
    · obtain ⟨-, t, ht, -⟩ := ht f hf
      exact mimeGood_trace ht
    · obtain ⟨w, hw⟩ := hus f hf
      exact gives_mimeField w f hw
  · intro f hf x hx
    rcases List.mem_append.1 hf with hf | hf
    · obtain ⟨-, t, ht, -⟩ := ht f hf
      cases f <;> simp [traceOf, unknownOf] at ht hx
    · obtain ⟨w, hw⟩ := hus f hf
      cases f <;> simp only [unknownOf, Option.some.injEq, reduceCtorEq] at hx
      subst hx
      exact gives_unicodeOptional hc w _ hw
  · intro f hf x hx
    rcases List.mem_append.1 hf with hf | hf
    · obtain ⟨h1, t, ht, hv⟩ := ht f hf
      rw [ht] at hx
      cases hx
      exact ⟨h1, hv⟩
    · obtain ⟨w, hw⟩ := hus f hf
      cases f <;> simp only [traceOf, Option.some.injEq, reduceCtorEq] at hx
      exact hw.elim
  · have h0 : us.filterMap traceOf = [] := by
      rw [List.filterMap_eq_nil_iff]
      intro f hf
      obtain ⟨w, hw⟩ := hus f hf
      cases f <;> first | rfl | exact hw.elim
    rw [List.filterMap_append, h0, List.append_nil]
    unfold traces at h1
    split at h1
    · exact (blocks_separated h1).1
    · cases h1; trivial
end

end EmailParser
