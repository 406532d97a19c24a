import Verif.Spec.Guarded
import Verif.Proofs.Strings
/-
Addresses, message ids, names and types in the values of the grammars.
-/
namespace EmailParser
open Spec Gram

variable {α β : Type} {c : Cfg}

theorem strOk_any : StrOk c (fun _ => True) := ⟨fun _ _ => trivial, fun _ => trivial, fun _ _ _ _ _ => trivial⟩

theorem Spec.Graphic.append {u v : Bytes} (hu : Graphic u) (hv : Graphic v) : Graphic (u ++ v) := by
  intro x hx
  rcases List.mem_append.1 hx with h | h
  · exact hu x h
  · exact hv x h

theorem Spec.Graphic.flatten {ws : List Bytes} (h : ∀ w ∈ ws, Graphic w) : Graphic ws.flatten := by
  intro x hx
  obtain ⟨w, hw, hx⟩ := List.mem_flatten.1 hx
  exact h w hw x hx

theorem Spec.Graphic.lower {s : Bytes} (h : Graphic s) : Graphic (s.map asciiLower) := by
  intro x hx
  obtain ⟨y, hy, rfl⟩ := List.mem_map.1 hx
  rw [vchar_lower]
  exact h y hy

/-! ### Strings without white space -/

theorem ens_solid {p : UInt8 → Bool} (h : ∀ x, p x = true → vchar x = true) : Ens Graphic (chars p) :=
  ens_mono (ens_chars fun x hx => .inl (h x hx)) fun _ hs x hx => h x (hs x hx)

theorem ens_solid1 {p : UInt8 → Bool} (h : ∀ x, p x = true → vchar x = true) : Ens Graphic (chars1 p) :=
  ens_mono (ens_chars1 fun x hx => .inl (h x hx)) fun _ hs x hx => h x (hs x hx)

theorem and_solid {p : UInt8 → Bool} (x : UInt8) (h : (vchar x && p x) = true) : vchar x = true :=
  (Bool.and_eq_true _ _ ▸ h).1

theorem solid_dotPart {lax : Bool} : Ens Graphic (DotPart lax) := by
  cases lax
  · exact ens_solid1 and_solid
  · exact ens_solid and_solid

theorem solid_dotAtomText {lax : Bool} : Ens Graphic (DotAtomText lax) :=
  ens_bind (ens_solid1 and_solid) fun _ h =>
    ens_bind (ens_star (ens_bind (P := Any) (ens_lit (by decide +kernel) trivial) fun _ _ =>
      ens_bind solid_dotPart fun _ h =>
        ens_pure (Graphic.append (by unfold Graphic; decide +kernel) h))) fun _ h' =>
      ens_pure (h.append (Graphic.flatten h'))

theorem solid_dotAtom {lax : Bool} : Ens Graphic (DotAtom lax) :=
  ens_bind ens_optCfws fun _ _ => ens_bind solid_dotAtomText fun _ h =>
    ens_bind ens_optCfws fun _ _ => ens_pure h

theorem solid_domainLiteral : Ens Graphic DomainLiteral :=
  ens_bind ens_optCfws fun _ _ => ens_bind (P := Any) (ens_lit (by decide +kernel) trivial) fun _ _ =>
    ens_bind (ens_star (ens_bind (ens_opt ens_fws) fun _ _ => ens_solid1 and_solid)) fun _ h =>
      ens_bind (ens_opt ens_fws) fun _ _ =>
        ens_bind (P := Any) (ens_lit (by decide +kernel) trivial) fun _ _ =>
          ens_bind ens_optCfws fun _ _ => ens_pure (Graphic.flatten h)

theorem solid_domain {lax : Bool} : Ens Graphic (Domain lax) := ens_or solid_dotAtom solid_domainLiteral

theorem solid_noFoldLiteral : Ens Graphic NoFoldLiteral :=
  ens_bind (P := Any) (ens_lit (by decide +kernel) trivial) fun _ _ =>
    ens_bind (ens_solid and_solid) fun _ h =>
      ens_bind (P := Any) (ens_lit (by decide +kernel) trivial) fun _ _ => ens_pure h

theorem solid_messageId {lax : Bool} : Ens (Guarded.Id Graphic) (MessageId lax) :=
  ens_bind ens_optCfws fun _ _ => ens_bind (P := Any) (ens_lit (by decide +kernel) trivial) fun _ _ =>
    ens_bind solid_dotAtomText fun _ h =>
      ens_bind (P := Any) (ens_lit (by decide +kernel) trivial) fun _ _ =>
        ens_bind (ens_or solid_dotAtomText solid_noFoldLiteral) fun _ h' =>
          ens_bind (P := Any) (ens_lit (by decide +kernel) trivial) fun _ _ =>
            ens_bind ens_optCfws fun _ _ => ens_pure ⟨h, h'⟩

/-! ### Addresses -/

abbrev Safe {α : Type} [Guarded α] : α → Prop := Guarded.All Graphic OneLine

theorem safe_addrSpec {lax : Bool} : Ens Safe (AddrSpec lax) :=
  ens_bind ens_localPart fun _ h => ens_bind (P := Any) (ens_lit (by decide +kernel) trivial) fun _ _ =>
    ens_bind solid_domain fun _ h' => ens_pure ⟨h, h'⟩

theorem safe_angleAddr {lax : Bool} : Ens Safe (AngleAddr lax) :=
  ens_bind ens_optCfws fun _ _ => ens_bind (P := Any) (ens_lit (by decide +kernel) trivial) fun _ _ =>
    ens_bind safe_addrSpec fun _ h =>
      ens_bind (P := Any) (ens_lit (by decide +kernel) trivial) fun _ _ =>
        ens_bind ens_optCfws fun _ _ => ens_pure h

theorem safe_mailbox : Ens Safe (MailboxG c) :=
  ens_or
    (ens_bind (ens_opt (ens_phrase strOk_any)) fun _ _ => ens_bind safe_angleAddr fun _ h' => ens_pure h')
    (ens_bind safe_addrSpec fun _ h => ens_pure h)

theorem safe_mailboxList : Ens Safe (MailboxList c) := ens_commaList safe_mailbox

theorem safe_groupList : Ens Safe (GroupList c) :=
  ens_or safe_mailboxList (ens_bind ens_optCfws fun _ _ => ens_pure (by intro v hv; cases hv))

theorem safe_group : Ens (fun g => Safe g.2) (Group c) :=
  ens_bind (ens_phrase strOk_any) fun _ _ =>
    ens_bind (P := Any) (ens_lit (by decide +kernel) trivial) fun _ _ =>
      ens_bind safe_groupList fun _ h' =>
        ens_bind (P := Any) (ens_lit (by decide +kernel) trivial) fun _ _ =>
          ens_bind ens_optCfws fun _ _ => ens_pure h'

theorem safe_address : Ens Safe (AddressG c) :=
  ens_or (ens_map safe_mailbox fun _ h => h) (ens_map safe_group fun _ h => h)

theorem safe_addressList : Ens Safe (AddressList c) := ens_commaList safe_address

theorem safe_bcc : Ens Safe (Bcc c) :=
  ens_or safe_addressList (ens_bind ens_cfws fun _ _ => ens_pure (by intro v hv; cases hv))

/-! ### Trace fields -/

theorem safe_path {lax : Bool} : Ens Safe (Path lax) :=
  ens_or (ens_map safe_angleAddr fun _ h v hv => by cases hv; exact h)
    (ens_bind ens_optCfws fun _ _ => ens_bind (P := Any) (ens_lit (by decide +kernel) trivial) fun _ _ =>
      ens_bind ens_optCfws fun _ _ => ens_bind (P := Any) (ens_lit (by decide +kernel) trivial) fun _ _ =>
        ens_bind ens_optCfws fun _ _ => ens_pure (by intro v hv; cases hv))

theorem safe_receivedToken {lax : Bool} : Ens Safe (ReceivedTokenG lax) := by
  intro w v h
  cases v with
  | word x => exact ens_word w x h
  | addr a =>
    rcases h with h | h
    · exact safe_angleAddr w a h
    · exact safe_addrSpec w a h
  | domain d => exact solid_domain w d h

theorem safe_received {lax : Bool} : Ens (fun r => Safe r.1) (ReceivedG lax) :=
  ens_bind (ens_star safe_receivedToken) fun _ h =>
    ens_bind (P := Any) (ens_lit (by decide +kernel) trivial) fun _ _ =>
      ens_bind ens_dateTime fun _ _ => ens_pure h

theorem safe_resent : Lines Safe (ResentG c) := by
  rintro w f ⟨w₁, w₂, ⟨⟩, rfl, h1, h2⟩
  have hx : ftext 82 = true := by decide +kernel
  cases f with
  | date v => exact lines_prefix ens_dateTime hx (by decide +kernel) ⟨w₁, w₂, rfl, h1, h2⟩
  | «from» v => exact lines_prefix safe_mailboxList hx (by decide +kernel) ⟨w₁, w₂, rfl, h1, h2⟩
  | sender v => exact lines_prefix safe_mailbox hx (by decide +kernel) ⟨w₁, w₂, rfl, h1, h2⟩
  | to v => exact lines_prefix safe_addressList hx (by decide +kernel) ⟨w₁, w₂, rfl, h1, h2⟩
  | cc v => exact lines_prefix safe_addressList hx (by decide +kernel) ⟨w₁, w₂, rfl, h1, h2⟩
  | bcc v => exact lines_prefix safe_bcc hx (by decide +kernel) ⟨w₁, w₂, rfl, h1, h2⟩
  | messageId v => exact lines_prefix solid_messageId hx (by decide +kernel) ⟨w₁, w₂, rfl, h1, h2⟩

/-! ### MIME fields -/

theorem solid_token : Ens Graphic Token := ens_solid1 and_solid

theorem solid_paramName : Ens (fun v => Graphic v.1) ParamName := by
  rintro w v (h | ⟨-, h, rfl⟩)
  · refine (ens_bind (Q := fun v => Graphic v.1) (ens_solid1 fun x h => ?_) fun _ h =>
      ens_bind (ens_opt (ens_bind (P := Any) (ens_lit (by decide +kernel) trivial) fun _ _ =>
        ens_u8)) fun _ _ =>
        ens_bind (P := Any) (ens_map (P := fun _ => True)
          (ens_mono (ens_opt (P := Any) (ens_lit (by decide +kernel) trivial)) fun _ _ => trivial)
          fun _ _ => trivial) fun _ _ => ens_pure h) w v h
    simp only [tokenChar, Bool.and_eq_true] at h
    exact h.1.1
  · exact solid_token w w h

theorem solid_parameter : Ens (fun p => Graphic p.name) Parameter :=
  ens_bind ens_optCfws fun _ _ => ens_bind (P := Any) (ens_lit (by decide +kernel) trivial) fun _ _ =>
    ens_bind ens_optCfws fun _ _ => ens_bind solid_paramName fun _ h =>
      ens_bind (P := Any) (ens_lit (by decide +kernel) trivial) fun _ _ =>
        ens_bind ens_paramText fun _ _ => ens_pure h.lower

theorem solid_namedOr {table : List (Bytes × α)} {other : Bytes → α} {P : α → Prop}
    (ht : ∀ e ∈ table, Printable e.1 ∧ P e.2) (ho : ∀ s, Graphic s → P (other s)) :
    Ens P (NamedOr table other) := by
  rintro w v (⟨s, hs, h⟩ | ⟨h, -, rfl⟩)
  · have := ht _ hs
    refine ⟨folded_of ?_, this.2⟩
    have hp : Printable (w.map asciiLower) := h ▸ this.1
    exact hp.of_lower
  · have := solid_token w w h
    exact ⟨this.1, ho _ this.2.lower⟩

theorem safe_collected {ps : List RawParam} (hp : ∀ p ∈ ps, Graphic p.name) :
    Ens Safe (Collected c ps) := by
  rintro w v ⟨rfl, h⟩
  refine ⟨.nil, fun name value hv => ?_⟩
  have h := h name
  rw [hv] at h
  have mem : ∀ {f : RawParam → Bool} {p : RawParam}, lastWith f ps = some p → p ∈ ps ∧ f p = true :=
    fun h => List.mem_filter.1 (List.mem_of_getLast? h)
  unfold ParamValue at h
  split at h
  · cases hq : plainParam ps name with
    | none => simp [hq] at h
    | some p =>
      obtain ⟨hmem, hf⟩ := mem hq
      have hn : p.name = name := by simp at hf; exact hf.1
      exact hn ▸ hp p hmem
  · rename_i initial hi
    obtain ⟨hmem, hf⟩ := mem hi
    have hn : initial.name = name := by simp at hf; exact hf.1
    exact hn ▸ hp _ hmem

theorem safe_contentType : Ens (fun t => Safe t.1 ∧ Graphic t.2.1 ∧ Safe t.2.2) (ContentTypeG c) :=
  ens_bind ens_optCfws fun _ _ =>
    ens_bind (solid_namedOr (P := Safe)
      (by
        have : ∀ e ∈ typeNames, Printable e.1 ∧ ∀ name, e.2 ≠ .unknown name := by
          unfold Printable typeNames
          intro e he
          simp only [List.mem_cons, List.not_mem_nil, or_false] at he
          rcases he with rfl | rfl | rfl | rfl | rfl | rfl | rfl <;>
            exact ⟨by decide +kernel, fun _ h => by cases h⟩
        exact fun e he => ⟨(this e he).1, fun name h => absurd h ((this e he).2 name)⟩)
      (fun s hs name h => by cases h; exact hs)) fun _ h1 =>
      ens_bind (P := Any) (ens_lit (by decide +kernel) trivial) fun _ _ =>
        ens_bind solid_token fun _ h2 => ens_bind (ens_star solid_parameter) fun _ hp =>
          ens_bind (safe_collected hp) fun _ h3 => ens_bind ens_inlineCfws fun _ _ =>
            ens_pure ⟨h1, h2.lower, h3⟩

/-- The filename of an item of a disposition, or the name of its parameter. -/
def ItemSafe : DispositionItem → Prop
  | .filename v => OneLine v
  | .parameter p => Graphic p.name
  | _ => True

theorem safe_dispositionParam : Ens ItemSafe DispositionParam := by
  intro w v h
  have h0 := ens_dispositionParam w v h
  refine ⟨h0.1, ?_⟩
  cases v with
  | filename v => exact h0.2
  | parameter p =>
    rcases h with ⟨_, h, -⟩ | ⟨_, h, -⟩ | ⟨_, h, -⟩ | ⟨_, h, -⟩ | ⟨p, h, h', -⟩ <;> cases h
    exact (solid_parameter w p h').2
  | _ => trivial

theorem safe_disposition : Ens Safe (DispositionG c) :=
  ens_bind ens_optCfws fun _ _ =>
    ens_bind (solid_namedOr (P := Safe)
      (by
        have : ∀ e ∈ dispositionNames, Printable e.1 ∧ ∀ name, e.2 ≠ .unknown name := by
          unfold Printable dispositionNames
          intro e he
          simp only [List.mem_cons, List.not_mem_nil, or_false] at he
          rcases he with rfl | rfl <;> exact ⟨by decide +kernel, fun _ h => by cases h⟩
        exact fun e he => ⟨(this e he).1, fun name h => absurd h ((this e he).2 name)⟩)
      (fun s hs name h => by cases h; exact hs)) fun _ h1 =>
      ens_bind (ens_star safe_dispositionParam) fun items hi =>
        ens_bind (safe_collected (by
          intro p hp
          obtain ⟨x, hx, he⟩ := List.mem_filterMap.1 hp
          cases x <;> simp at he
          subst he
          exact hi _ hx)) fun _ h3 => ens_bind ens_inlineCfws fun _ _ =>
            ens_pure ⟨h1, by
              intro v hv
              obtain ⟨x, hx, he⟩ := List.mem_filterMap.1 (List.mem_of_getLast? hv)
              cases x <;> simp at he
              subst he
              exact hi _ hx, h3⟩

/-! ### Header fields -/

/-- The guarded strings of a field. -/
def FieldSafe : Field → Prop
  | .from v => Safe v
  | .sender v => Safe v
  | .replyTo v => Safe v
  | .to v => Safe v
  | .cc v => Safe v
  | .bcc v => Safe v
  | .messageId v => Guarded.Id Graphic v
  | .inReplyTo v => ∀ x ∈ v, Guarded.Id Graphic x
  | .references v => ∀ x ∈ v, Guarded.Id Graphic x
  | .contentType t s p => Safe t ∧ Graphic s ∧ Safe p
  | .contentId v => Guarded.Id Graphic v
  | .contentDisposition v => Safe v
  | .trace returnPath received fields => Safe returnPath ∧ (∀ r ∈ received, Safe r.1) ∧ Safe fields
  | .unknown name _ => Graphic name
  | _ => True

theorem optionalField_name {w : Bytes} {v : Bytes × Bytes} (h : OptionalField c w v) : Graphic v.1 := by
  obtain ⟨w₁, w₂, name, -, ⟨rfl, -, h1⟩, _, _, _, -, -, _, _, a, -, -, _, _, _, -, -, -, rfl⟩ := h
  exact fun x hx => ftext_vchar _ (h1 x hx)

theorem safe_field {w : Bytes} {f : Field} (h : FieldG c w f) : FieldSafe f := by
  cases f
  case «from» => exact (lines_header safe_mailboxList (by decide +kernel) (by decide +kernel) _ _ h.2).2
  case sender => exact (lines_header safe_mailbox (by decide +kernel) (by decide +kernel) _ _ h.2).2
  case replyTo => exact (lines_header safe_addressList (by decide +kernel) (by decide +kernel) _ _ h.2).2
  case to => exact (lines_header safe_addressList (by decide +kernel) (by decide +kernel) _ _ h.2).2
  case cc => exact (lines_header safe_addressList (by decide +kernel) (by decide +kernel) _ _ h.2).2
  case bcc => exact (lines_header safe_bcc (by decide +kernel) (by decide +kernel) _ _ h.2).2
  case messageId => exact (lines_header solid_messageId (by decide +kernel) (by decide +kernel) _ _ h.2).2
  case inReplyTo =>
    exact (lines_header (ens_plus solid_messageId) (by decide +kernel) (by decide +kernel) _ _ h.2).2
  case references =>
    exact (lines_header (ens_plus solid_messageId) (by decide +kernel) (by decide +kernel) _ _ h.2).2
  case contentType =>
    exact (lines_header safe_contentType (by decide +kernel) (by decide +kernel) _ _ h.2).2
  case contentId => exact (lines_header solid_messageId (by decide +kernel) (by decide +kernel) _ _ h.2).2
  case contentDisposition =>
    exact (lines_header safe_disposition (by decide +kernel) (by decide +kernel) _ _ h.2).2
  case trace => exact h.elim
  case unknown => exact optionalField_name h
  all_goals trivial

theorem safe_traceBlock : Lines FieldSafe (TraceBlock c) :=
  lines_bind (lines_opt (lines_header safe_path (by decide +kernel) (by decide +kernel))) fun _ h1 =>
    lines_bind (lines_plus (lines_header safe_received (by decide +kernel) (by decide +kernel)))
      fun _ h2 => lines_bind (lines_star safe_resent) fun _ h3 => lines_pure ⟨h1, h2, h3⟩

theorem safe_headerBlock (hu : c.feat.unrecognizedHeaders = true → c.feat.mime = true) :
    Lines (fun fs => ∀ f ∈ fs, FieldSafe f) (HeaderBlock c) :=
  lines_bind (P := fun fs => ∀ f ∈ fs, FieldSafe f)
    (by
      unfold TraceBlocks
      split
      · exact lines_star safe_traceBlock
      · exact lines_pure (by intro v hv; cases hv)) fun _ h1 =>
    lines_bind (lines_star (P := FieldSafe)
      (fun w f h => ⟨(lines_field strOk_any hu w f h).1, safe_field h⟩)) fun _ h2 =>
      lines_pure fun v hv => by
        rcases List.mem_append.1 hv with hv | hv
        · exact h1 v hv
        · exact h2 v hv

end EmailParser
