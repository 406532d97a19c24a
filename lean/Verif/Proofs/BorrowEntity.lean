import Verif.Proofs.BorrowEmail
import Verif.Proofs.Entity
import Verif.Props.Cow
/-
MIME entities: agreement with the model without ownership, and where the strings are.
-/
namespace EmailParser
open Spec HasStrings

variable {c : Cfg} {p : Place} {lo : Nat} {m : Memory} {P : CowStr → Prop}

instance : HasStrings CowEntityHeader EntityHeader where
  content m
    | .encoding v => .encoding (content m v)
    | .type v => .type (content m v)
    | .id v => .id (content m v)
    | .description v => .description (content m v)
    | .disposition v => .disposition (content m v)
    | .other n v => .other (content m n) (content m v)
  strings
    | .encoding v => strings v
    | .type v => strings v
    | .id v => strings v
    | .description v => strings v
    | .disposition v => strings v
    | .other n v => strings n ++ strings v

theorem cowEntityHeader_reads {i : Bytes} (hi : Here p lo i) :
    Alike (cowEntityHeader c p i) (entityHeader c i) (ReadsTo (Keeps p lo) i) := by
  unfold cowEntityHeader entityHeader
  refine .matchParsers ((cowTransferEncoding_reads hi).mapValue
    fun _ _ _ h => h.wrap (f := CowEntityHeader.encoding) rfl fun _ h => h) ?_
  refine .matchParsers ((cowContentType_reads hi).mapValue
    fun _ _ _ h => h.wrap (f := CowEntityHeader.type) rfl fun _ h => h) ?_
  refine .matchParsers ((cowContentId_reads hi).mapValue fun _ _ _ h => h.wrap (f := CowEntityHeader.id) rfl fun _ h => h) ?_
  refine .matchParsers ((cowContentDescription_reads hi).mapValue
    fun _ _ _ h => h.wrap (f := CowEntityHeader.description) rfl fun _ h => h) ?_
  refine .matchParsers ((cowContentDisposition_reads hi).mapValue
    fun _ _ _ h => h.wrap (f := CowEntityHeader.disposition) rfl fun _ h => h) ?_
  exact .matchParsers ((cowUnknown_reads hi).mapValue fun _ _ _ h => h.wrap
    (f := fun s : CowStr × CowStr => CowEntityHeader.other s.1 s.2) (g := fun v => EntityHeader.other v.1 v.2) rfl
      fun _ h => h) .matchNil

/-- The variables of `header_part`, after the headers `hs`. -/
structure HeadersGood (m : Memory) (P : CowStr → Prop) (hs : List EntityHeader) (a : EntityHeaders) (b : CowEntityHeaders) :
    Prop where
  encoding : Good m P a.encoding b.encoding
  mimeType : Good m P a.mimeType b.mimeType
  id : Good m P a.id b.id
  description : Good m P a.description b.description
  disposition : Good m P a.disposition b.disposition
  additionalHeaders : Good m P a.additionalHeaders b.additionalHeaders
  seen : ∀ e, a.encoding = some e → EntityHeader.encoding e ∈ hs

theorem headersGood_nil {hs : List EntityHeader} : HeadersGood m P hs {} {} :=
  ⟨.none, .none, .none, .none, .none, .nil, by intro e h; cases h⟩

theorem headersAdd_good {hs : List EntityHeader} {a : EntityHeaders} {b : CowEntityHeaders} (h : HeadersGood m P hs a b)
    {v : EntityHeader} {s : CowEntityHeader} (hg : Good m P v s) (hv : v ∈ hs) : HeadersGood m P hs (a.add v) (b.add s) := by
  obtain ⟨rfl, hg⟩ := hg
  have ok : ∀ {α β : Type} [HasStrings α β] {x : α}, strings x = strings s → Good m P (content m x) x :=
    fun e => ⟨rfl, fun t ht => hg t (e ▸ ht)⟩
  cases s with
  | encoding v => exact { h with encoding := .some (ok rfl), seen := by intro e he; cases he; exact hv }
  | type v => exact { h with mimeType := .some (ok rfl) }
  | id v => exact { h with id := .some (ok rfl) }
  | description v => exact { h with description := .some (ok rfl) }
  | disposition v => exact { h with disposition := .some (ok rfl) }
  | other n v => exact { h with additionalHeaders := h.additionalHeaders.append (.single (ok (x := (n, v)) rfl)) }

theorem headersFold_good {hs : List EntityHeader} : ∀ (ss : List CowEntityHeader) (vs : List EntityHeader) {a : EntityHeaders}
    {b : CowEntityHeaders}, HeadersGood m P hs a b → Good m P vs ss → (∀ v ∈ vs, v ∈ hs) →
    HeadersGood m P hs (vs.foldl EntityHeaders.add a) (ss.foldl CowEntityHeaders.add b)
  | [], vs, a, b, h, hg, hv => by
    obtain ⟨rfl, -⟩ := hg
    exact h
  | s :: ss, vs, a, b, h, hg, hv => by
    obtain ⟨rfl, hg⟩ := hg
    have hg : ∀ t ∈ strings s ++ strings ss, P t := hg
    have hv : ∀ v ∈ content m s :: content m ss, v ∈ hs := hv
    exact headersFold_good ss (content m ss)
      (headersAdd_good h ⟨rfl, fun t ht => hg t (List.mem_append_left _ ht)⟩ (hv _ (List.mem_cons_self ..)))
      ⟨rfl, fun t ht => hg t (List.mem_append_right _ ht)⟩ fun v h => hv v (List.mem_cons_of_mem _ h)

/-- What `header_part` returns. -/
structure HeadKept (m : Memory) (P : CowStr → Prop) (hs : List EntityHeader) (a : EntityHeaders) (b : CowHeaderPart) : Prop where
  encoding : Good m P (a.encoding.getD .sevenBit) b.encoding
  mimeType : Good (α := CowContentType × CowStr × CowParams) m P (a.mimeType.getD defaultType) (b.mimeType, b.subtype, b.parameters)
  id : Good m P a.id b.id
  description : Good m P a.description b.description
  disposition : Good m P a.disposition b.disposition
  additionalHeaders : Good m P a.additionalHeaders b.additionalHeaders
  seen : ∀ e, a.encoding = some e → EntityHeader.encoding e ∈ hs

theorem HeadersGood.withDefaults {l : Literals} (hl : LiteralsAt m l) (hP : ∀ t, IsLiteral l t → P t) {hs : List EntityHeader}
    {a : EntityHeaders} {b : CowEntityHeaders} (h : HeadersGood m P hs a b) : HeadKept m P hs a (b.withDefaults l) where
  encoding := h.encoding.getD (s := CowTransferEncoding.sevenBit) ⟨rfl, by intro t ht; cases ht⟩
  mimeType := h.mimeType.getD ((defaultType_good hl).mono hP)
  id := h.id
  description := h.description
  disposition := h.disposition
  additionalHeaders := h.additionalHeaders
  seen := h.seen

/-- The headers of an entity: the text of the headers, and the body after them. -/
def HeaderPartGood (c : Cfg) (p : Place) (l : Literals) (i : Bytes) (v : Nat × EntityHeaders) (s : Nat × CowHeaderPart) : Prop :=
  ∃ head rest body hs, i = head ++ rest ∧ many i (entityHeader c) = .ok (rest, hs) ∧
    (rest = [] ∧ body = [] ∨ rest = 13 :: 10 :: body) ∧ v.1 = body.length ∧ s.1 = body.length ∧
    HeadKept p.memory (StringGood p l (p.addr i) head) hs v.2 s.2

theorem cowHeaderPart_good {l : Literals} (hl : LiteralsAt p.memory l) {i : Bytes} (hi : At p i) :
    AlikeO (cowHeaderPart c p l i) (headerPart c i) (HeaderPartGood c p l i) := by
  have h := Alike.manyKeeps (p := p) (lo := p.addr i) (fun _ => cowEntityHeader_reads (c := c)) (i := i) ⟨hi, Nat.le_refl _⟩
  unfold cowHeaderPart headerPart
  unfold Alike at h
  cases hx : many i (cowEntityHeader c p) with
  | err e => cases hy : many i (entityHeader c) <;> rw [hx, hy] at h <;> first | exact h.elim | exact h
  | abort k => cases hy : many i (entityHeader c) <;> rw [hx, hy] at h <;> first | exact h.elim | exact h
  | ok a =>
    cases hy : many i (entityHeader c) with
    | err e => rw [hx, hy] at h; exact h.elim
    | abort k => rw [hx, hy] at h; exact h.elim
    | ok b =>
      rw [hx, hy] at h
      obtain ⟨r, ss⟩ := a
      obtain ⟨r', vs⟩ := b
      obtain ⟨rfl, head, hw, hk⟩ := h
      have hp : HeadKept p.memory (StringGood p l (p.addr i) head) vs (vs.foldl EntityHeaders.add {})
          ((ss.foldl CowEntityHeaders.add {}).withDefaults l) :=
        (headersFold_good ss vs headersGood_nil ⟨hk.1, fun t ht => .inr (hk.2 t ht)⟩ fun _ h => h).withDefaults hl
          fun t ht => .inl ht
      show AlikeO (if r.isEmpty then _ else _) (if r.isEmpty then _ else _) _
      split
      · next he =>
        obtain rfl := List.isEmpty_iff.mp he
        exact ⟨head, [], [], vs, hw, hy, .inl ⟨rfl, rfl⟩, rfl, rfl, hp⟩
      · cases ht : tag r (b! "\r\n") "TAG ERROR: A MIME entity header part must be followed by a CRLF sequence." with
        | err e => exact rfl
        | abort k => exact rfl
        | ok a => exact ⟨head, r, a.1, vs, hw, hy, .inr (tag_ok_iff.mp ht), rfl, rfl, hp⟩

/-- The value of an entity with the headers `hs` and the body `body`. -/
def PartValueGood (hs : List EntityHeader) (body t : CowStr) : Prop :=
  t = body ∨ Owned t ∧ ∃ e, Encoded e ∧ EntityHeader.encoding e ∈ hs

/-- The plain construction of an entity. -/
def EntityHeaders.entity (h : EntityHeaders) (body : Bytes) : Outcome RawEntity := do
  let value ← decodeValue body (h.encoding.getD .sevenBit)
  let (mimeType, subtype, parameters) := h.mimeType.getD defaultType
  .ok { mimeType, subtype, description := h.description, id := h.id, parameters,
        disposition := h.disposition, value, additionalHeaders := h.additionalHeaders }

theorem HeadKept.entity {hs : List EntityHeader} {a : EntityHeaders} {b : CowHeaderPart} (h : HeadKept m P hs a b) {body : Bytes}
    {body' : CowStr} (hb : content m body' = body) :
    AlikeO (b.entity m body') (a.entity body) (EntityKept m P (PartValueGood hs body')) := by
  unfold CowHeaderPart.entity EntityHeaders.entity
  refine (cowDecodeValue_alike h.encoding.1 hb).bind fun x t hx => ?_
  refine entityGood h.mimeType h.description h.id h.disposition hx.1 h.additionalHeaders ?_
  obtain ⟨-, rfl | ⟨hy, hx⟩⟩ := hx
  · exact .inl rfl
  · refine .inr ⟨hy, _, hx, h.seen _ ?_⟩
    cases hc : a.encoding with
    | none => rw [hc] at hx; rcases hx with hx | hx <;> cases hx
    | some e => rfl

/-- An entity read from the text `i`. -/
def RawKept (c : Cfg) (p : Place) (l : Literals) (i : Bytes) (v : RawEntity) (s : CowRawEntity) : Prop :=
  ∃ head rest body hs, i = head ++ rest ∧ many i (entityHeader c) = .ok (rest, hs) ∧
    (rest = [] ∧ body = [] ∨ rest = 13 :: 10 :: body) ∧
    EntityKept p.memory (StringGood p l (p.addr i) head) (PartValueGood hs (p.slice body body)) v s

theorem cowRawEntity_good {l : Literals} (hl : LiteralsAt p.memory l) {i : Bytes} (hi : At p i) :
    AlikeO (cowRawEntity c p l i) (rawEntity c i) (RawKept c p l i) := by
  unfold cowRawEntity rawEntity
  refine (cowHeaderPart_good hl hi).bind ?_
  rintro ⟨n, h⟩ ⟨n', h'⟩ ⟨head, rest, body, hs, hw, hm, hr, rfl, rfl, hp⟩
  have hsuf : body <:+ i := by
    rw [hw]
    rcases hr with ⟨rfl, rfl⟩ | rfl
    · exact List.nil_suffix
    · exact ⟨head ++ [13, 10], by simp⟩
  dsimp only at hp ⊢
  rw [entityBody_suffix hsuf]
  have hc : content p.memory (p.slice body body) = body := by
    obtain ⟨u, rfl⟩ := hsuf
    have h2 : Here p 0 (u ++ (body ++ [])) := by
      rw [List.append_nil]
      exact ⟨hi, Nat.zero_le _⟩
    have h3 := keeps_slice (w := []) h2
    rw [List.append_nil] at h3
    exact h3.1
  exact (hp.entity hc).mono fun v s h => ⟨head, rest, body, hs, hw, hm, hr, h⟩

/-! ### Owned input -/

theorem HeadKept.intoOwned {hs : List EntityHeader} {a : EntityHeaders} {b : CowHeaderPart} (h : HeadKept m P hs a b)
    (m' : Memory) : HeadKept m' Owned hs a (b.intoOwned m) := by
  have hc := C50_headers m m' b
  have ho := C50_owned m b
  have h1 : content m' (b.intoOwned m).encoding = content m b.encoding := Option.some.inj (congrArg EntityHeaders.encoding hc)
  have h2 : content (α := CowContentType × CowStr × CowParams) m' ((b.intoOwned m).mimeType, (b.intoOwned m).subtype,
      (b.intoOwned m).parameters) = content (α := CowContentType × CowStr × CowParams) m (b.mimeType, b.subtype, b.parameters) :=
    Option.some.inj (congrArg EntityHeaders.mimeType hc)
  have h3 : content m' (b.intoOwned m).id = content m b.id := congrArg EntityHeaders.id hc
  have h4 : content m' (b.intoOwned m).description = content m b.description := congrArg EntityHeaders.description hc
  have h5 : content m' (b.intoOwned m).disposition = content m b.disposition := congrArg EntityHeaders.disposition hc
  have h6 : content m' (b.intoOwned m).additionalHeaders = content m b.additionalHeaders :=
    congrArg EntityHeaders.additionalHeaders hc
  generalize b.intoOwned m = d at *
  simp only [headerStrings, List.mem_append] at ho
  refine ⟨⟨h1.trans h.encoding.1, fun t ht => ho t ?_⟩, ⟨h2.trans h.mimeType.1, fun t ht => ho t ?_⟩,
    ⟨h3.trans h.id.1, fun t ht => ho t ?_⟩, ⟨h4.trans h.description.1, fun t ht => ho t ?_⟩,
    ⟨h5.trans h.disposition.1, fun t ht => ho t ?_⟩, ⟨h6.trans h.additionalHeaders.1, fun t ht => ho t ?_⟩, h.seen⟩
  · exact .inl (.inl (.inl (.inl (.inl (.inl (.inl ht))))))
  · have ht : t ∈ contentTypeStrings d.mimeType ++ ([d.subtype] ++ pairStrings d.parameters) := ht
    simp only [List.mem_append] at ht
    rcases ht with ht | ht | ht
    · exact .inl (.inl (.inl (.inl (.inl (.inl (.inr ht))))))
    · exact .inl (.inl (.inl (.inl (.inl (.inr ht)))))
    · exact .inl (.inl (.inl (.inl (.inr ht))))
  · cases hd : d.id with
    | none => rw [hd] at ht; cases ht
    | some x => rw [hd] at ht; exact .inl (.inl (.inr ht))
  · cases hd : d.description with
    | none => rw [hd] at ht; cases ht
    | some x => rw [hd] at ht; exact .inl (.inr ht)
  · cases hd : d.disposition with
    | none => rw [hd] at ht; cases ht
    | some x => rw [hd] at ht; exact .inr ht
  · exact .inl (.inl (.inl (.inr ht)))

theorem cowRawEntityOwned_good {l : Literals} (hl : LiteralsAt p.memory l) {i : Bytes} (hi : At p i) (m' : Memory) :
    AlikeO (cowRawEntityOwned c p l i) (rawEntity c i) (EntityKept m' Owned Owned) := by
  unfold cowRawEntityOwned rawEntity
  refine (cowHeaderPart_good hl hi).bind ?_
  rintro ⟨n, h⟩ ⟨n', h'⟩ ⟨head, rest, body, hs, hw, hm, hr, rfl, rfl, hp⟩
  have hsuf : body <:+ i := by
    rw [hw]
    rcases hr with ⟨rfl, rfl⟩ | rfl
    · exact List.nil_suffix
    · exact ⟨head ++ [13, 10], by simp⟩
  dsimp only at hp ⊢
  rw [entityBody_suffix hsuf]
  have hq : ∀ t, PartValueGood hs (.owned body) t → Owned t := by
    rintro t (rfl | h)
    · trivial
    · exact h.1
  have he : ∀ e : CowTransferEncoding, cowDecodeValue p.memory (.owned body) e = cowDecodeValue m' (.owned body) e := by
    intro e
    cases e <;> rfl
  have h1 : (h'.intoOwned p.memory).entity p.memory (.owned body) = (h'.intoOwned p.memory).entity m' (.owned body) := by
    unfold CowHeaderPart.entity
    rw [he]
  show AlikeO ((h'.intoOwned p.memory).entity p.memory (.owned body)) (h.entity body) _
  rw [h1]
  exact ((hp.intoOwned m').entity (body' := .owned body) rfl).mono fun v s h => ⟨h.1, h.2.1, hq _ h.2.2⟩

/-! ### Multipart -/

/-- A slice at an address, between `lo` and the end of the input. -/
def PieceGood (p : Place) (lo : Nat) (v : Bytes) (s : Nat × Bytes) : Prop :=
  s.2 = v ∧ lo ≤ s.1 ∧ s.1 + v.length ≤ p.stop ∧ p.memory.read s.1 v.length = v

theorem pieceGood {u v r : Bytes} (h : Here p lo (u ++ (v ++ r))) : PieceGood p lo v (p.addr (v ++ r), v) := by
  have h := h.right
  obtain ⟨⟨h1, h2⟩, h3⟩ := h
  refine ⟨rfl, h3, ?_, ?_⟩
  · rw [List.length_append] at h1
    unfold Place.addr
    rw [List.length_append]
    omega
  · have := congrArg (List.take v.length) h2
    rw [List.take_left] at this
    refine Eq.trans ?_ this
    show p.memory.read (p.addr (v ++ r)) v.length = _
    generalize p.addr (v ++ r) = a
    unfold Memory.read
    rw [← List.map_take, List.take_range, List.length_append, Nat.min_eq_left (Nat.le_add_right ..)]

theorem cowBeforeBoundary_reads {b i : Bytes} (hi : Here p lo i) :
    Alike (cowBeforeBoundary p b i) (beforeBoundary b i) (ReadsTo (fun _ => PieceGood p lo) i) := by
  unfold cowBeforeBoundary
  rcases beforeBoundary_cases b i with ⟨rest, hi', h⟩ | ⟨-, part, rest, ⟨hi', -⟩, h⟩ | ⟨-, -, h⟩
  · rw [h]
    exact .ok ⟨_, hi', pieceGood (u := []) (r := i) hi⟩
  · rw [h]
    rw [List.append_assoc] at hi'
    refine .ok ⟨part ++ delimiter b, by rw [List.append_assoc]; exact hi', ?_⟩
    rw [hi'] at hi ⊢
    exact pieceGood (u := []) hi
  · rw [h]
    exact rfl

/-- All pieces are where they should be. -/
def PiecesGood (p : Place) (lo : Nat) (vs : List Bytes) (ss : List (Nat × Bytes)) : Prop :=
  All2 (fun _ => PieceGood p lo) [] vs ss

theorem All2.any {α β : Type} {K : β → α → Prop} {w w' : Bytes} : ∀ {vs : List β} {ss : List α},
    All2 (fun _ => K) w vs ss → All2 (fun _ => K) w' vs ss
  | [], [], _ => trivial
  | _ :: _, _ :: _, h => ⟨h.1, All2.any h.2⟩
  | [], _ :: _, h => h.elim
  | _ :: _, [], h => h.elim

theorem All2.append {α β : Type} {K : Bytes → β → α → Prop} {w : Bytes} : ∀ {vs vs' : List β} {ss ss' : List α},
    All2 K w vs ss → All2 K w vs' ss' → All2 K w (vs ++ vs') (ss ++ ss')
  | [], _, [], _, _, h => h
  | _ :: _, _, _ :: _, _, h, h' => ⟨h.1, All2.append h.2 h'⟩
  | [], _, _ :: _, _, h, _ => h.elim
  | _ :: _, _, [], _, h, _ => h.elim

theorem cowMultipartParts_good {b i : Bytes} (hi : At p i) :
    AlikeO (cowMultipartParts p i b) (multipartParts i b) (PiecesGood p (p.addr i)) := by
  have h := Alike.many (p := p) (lo := p.addr i) (K := fun _ => PieceGood p (p.addr i)) (fun _ _ _ _ h _ => h)
    (fun _ => cowBeforeBoundary_reads (b := b)) (i := i) ⟨hi, Nat.le_refl _⟩
  unfold cowMultipartParts multipartParts
  unfold Alike at h
  cases hx : many i (cowBeforeBoundary p b) with
  | err e => cases hy : many i (beforeBoundary b) <;> rw [hx, hy] at h <;> first | exact h.elim | exact h
  | abort k => cases hy : many i (beforeBoundary b) <;> rw [hx, hy] at h <;> first | exact h.elim | exact h
  | ok x =>
    cases hy : many i (beforeBoundary b) with
    | err e => rw [hx, hy] at h; exact h.elim
    | abort k => rw [hx, hy] at h; exact h.elim
    | ok y =>
      rw [hx, hy] at h
      obtain ⟨r, ss⟩ := x
      obtain ⟨r', vs⟩ := y
      obtain ⟨rfl, w, hw, hk⟩ := h
      have hr : Here p (p.addr i) r := by
        have : Here p (p.addr i) i := ⟨hi, Nat.le_refl _⟩
        generalize p.addr i = lo at *
        subst hw
        exact this.right
      show AlikeO (beforeClosingBoundary b r >>= _) (beforeClosingBoundary b r >>= _) _
      rcases beforeClosingBoundary_cases b r with ⟨last, rest, ⟨hl, -⟩, h⟩ | ⟨-, h⟩
      · rw [h]
        rw [List.append_assoc] at hl
        have hlast : PieceGood p (p.addr i) last (p.addr r, last) := by
          rw [hl] at hr ⊢
          exact pieceGood (u := []) hr
        have hall : PiecesGood p (p.addr i) (vs ++ [last]) (ss ++ [(p.addr r, last)]) :=
          (All2.any hk).append ⟨hlast, trivial⟩
        show AlikeO (match ss ++ [(p.addr r, last)] with | _ :: parts => Outcome.ok parts | [] => .abort .panic)
          (match vs ++ [last] with | _ :: parts => Outcome.ok parts | [] => .abort .panic) _
        generalize ss ++ [(p.addr r, last)] = ss' at hall
        generalize vs ++ [last] = vs' at hall
        cases ss' <;> cases vs' <;> first | exact hall.elim | skip
        · exact rfl
        · exact hall.2
      · rw [h]
        exact rfl

/-- A part of a multipart entity, at its place: what holds of its strings. -/
def PartEntityGood (c : Cfg) (p : Place) (l : Literals) (lo : Nat) (part : Bytes) (v : RawEntity) (s : CowRawEntity) : Prop :=
  ∃ addr, lo ≤ addr ∧ addr + part.length ≤ p.stop ∧ p.memory.read addr part.length = part ∧
    RawKept c (p.part addr part.length) l part v s

/-- All parts. -/
def PartEntitiesGood (c : Cfg) (p : Place) (l : Literals) (lo : Nat) : List Bytes → List RawEntity → List CowRawEntity → Prop
  | [], [], [] => True
  | part :: parts, v :: vs, s :: ss => PartEntityGood c p l lo part v s ∧ PartEntitiesGood c p l lo parts vs ss
  | _, _, _ => False

theorem part_at {v : Bytes} {s : Nat × Bytes} (h : PieceGood p lo v s) : At (p.part s.1 v.length) v := by
  refine ⟨Nat.le_add_left .., ?_⟩
  have : (p.part s.1 v.length).addr v = s.1 := Nat.add_sub_cancel ..
  rw [this]
  exact h.2.2.2

theorem cowRawEntities_good {l : Literals} (hl : LiteralsAt p.memory l) : ∀ {vs : List Bytes} {ss : List (Nat × Bytes)},
    PiecesGood p lo vs ss → AlikeO (cowRawEntities c p l ss) (rawEntities c vs) (PartEntitiesGood c p l lo vs)
  | [], [], _ => trivial
  | v :: vs, (a, w) :: ss, h => by
    obtain ⟨h1, h2⟩ := h
    have h3 := part_at h1
    obtain ⟨rfl, h4, h5, h6⟩ := h1
    unfold cowRawEntities rawEntities
    refine (cowRawEntity_good (p := p.part a w.length) hl h3).bind fun v s hv => ?_
    exact (cowRawEntities_good hl h2).bind fun vs ss hvs => ⟨⟨a, h4, h5, h6, hv⟩, hvs⟩
  | [], _ :: _, h => h.elim
  | _ :: _, [], h => h.elim

theorem cowParams_get (n : Bytes) : ∀ q : CowParams, (q.get m n).map (CowStr.content m) = (content m q : Params) n
  | [] => rfl
  | (k, v) :: q => by
    show (if k.content m = n then some v else CowParams.get m n q).map (CowStr.content m) =
      List.lookup n ((k.content m, v.content m) :: cowPairs m q)
    rw [List.lookup_cons]
    by_cases h : k.content m = n
    · rw [if_pos h, h, beq_self_eq_true]
      rfl
    · rw [if_neg h, beq_false_of_ne (Ne.symm h)]
      exact cowParams_get n q

theorem cowParseMultipart_good {l : Literals} (hl : LiteralsAt p.memory l) {i : Bytes} (hi : At p i) (q : CowParams) :
    AlikeO (cowParseMultipart c p l i q) (parseMultipart c i (content p.memory q)) fun vs ss =>
      ∃ parts, PartEntitiesGood c p l (p.addr i) parts vs ss := by
  have h := cowParams_get (m := p.memory) (b! "boundary") q
  unfold cowParseMultipart parseMultipart
  rw [← h]
  cases q.get p.memory (b! "boundary") with
  | none => exact rfl
  | some b =>
    exact (cowMultipartParts_good hi).bind fun vs ss hs =>
      (cowRawEntities_good hl hs).mono fun _ _ h => ⟨vs, h⟩

/-! ### `RawEntity::parse` -/

theorem content_multipart {t : CowContentType} : t = .multipart ↔ (content m t : ContentType) = .multipart := by
  cases t <;> simp [HasStrings.content, Spec.cowContentType]

theorem content_text {t : CowContentType} : t = .text ↔ (content m t : ContentType) = .text := by
  cases t <;> simp [HasStrings.content, Spec.cowContentType]

/-- A decoded entity, as it is returned for an entity with the subtype `sub` and the value `i`. -/
def ParsedGood (c : Cfg) (p : Place) (l : Literals) (raw : CowRawEntity) (i : Bytes) : Entity → CowEntity → Prop
  | .multipart t vs, .multipart t' ss => t' = raw.subtype ∧ t'.content p.memory = t ∧
      ∃ parts, PartEntitiesGood c p l (p.addr i) parts vs ss
  | .text t v, .text t' s => t' = raw.subtype ∧ t'.content p.memory = t ∧ s.content p.memory = v ∧
      ∃ charset, (content p.memory raw.parameters : Params) (b! "charset") = some charset ∧
        if c.toLowercase charset = b! "utf-8" ∨ c.toLowercase charset = b! "us-ascii" then s = p.slice i i else Owned s
  | .unknown, .unknown => True
  | _, _ => False

theorem cowDecodeText_good {i name : Bytes} (hi : At p i) :
    match cowDecodeText c p name i, decodeCharset c name i with
    | none, none => True
    | some x, some y => AlikeO x y fun v s => s.content p.memory = v ∧
        if name = b! "utf-8" ∨ name = b! "us-ascii" then s = p.slice i i else Owned s
    | _, _ => False := by
  have hc : (p.slice i i).content p.memory = i := hi.2
  unfold cowDecodeText decodeCharset
  by_cases h : name = b! "utf-8" ∨ name = b! "us-ascii"
  · have hb : (name == b! "utf-8" || name == b! "us-ascii") = true := by simpa using h
    rw [if_pos hb]
    dsimp only
    by_cases hu : utf8Valid i = true
    · rw [if_pos hu]
      show (if _ then _ else _ : CowStr).content p.memory = i ∧ _
      rw [if_pos hb, if_pos h]
      exact ⟨hc, rfl⟩
    · rw [if_neg hu]
      exact rfl
  · have hb : ¬ (name == b! "utf-8" || name == b! "us-ascii") = true := by simpa using h
    rw [if_neg hb]
    cases textcodeTable.lookup name with
    | none => exact trivial
    | some t =>
      show (if _ then _ else _ : CowStr).content p.memory = _ ∧ _
      rw [if_neg hb, if_neg h]
      exact ⟨rfl, trivial⟩

theorem cowParse_good {l : Literals} (hl : LiteralsAt p.memory l) {raw : CowRawEntity} {r : RawEntity}
    (hr : content p.memory raw = r) (hi : At p r.value) :
    AlikeO (raw.parse c p l r.value) (r.parse c) (ParsedGood c p l raw r.value) := by
  have h1 : r.mimeType = content p.memory raw.mimeType := congrArg RawEntity.mimeType hr.symm
  have h2 : r.subtype = content p.memory raw.subtype := congrArg RawEntity.subtype hr.symm
  have h3 : r.parameters = content p.memory raw.parameters := congrArg RawEntity.parameters hr.symm
  clear hr
  unfold CowRawEntity.parse RawEntity.parse
  rw [h1, h2, h3]
  by_cases hm : raw.mimeType = .multipart
  · rw [if_pos hm, if_pos (content_multipart.mp hm)]
    exact (cowParseMultipart_good hl hi raw.parameters).bind fun vs ss h => ⟨rfl, rfl, h⟩
  · rw [if_neg hm, if_neg fun h => hm (content_multipart.mpr h)]
    by_cases ht : raw.mimeType = .text
    · rw [if_pos ht, if_pos (content_text.mp ht)]
      have hg := cowParams_get (m := p.memory) (b! "charset") raw.parameters
      rw [← hg]
      cases hs : raw.parameters.get p.memory (b! "charset") with
      | none => exact trivial
      | some s =>
        rw [hs] at hg
        have := cowDecodeText_good (c := c) (name := c.toLowercase (s.content p.memory)) hi
        dsimp only [Option.map_some]
        cases hx : cowDecodeText c p (c.toLowercase (s.content p.memory)) r.value with
        | none =>
          cases hy : decodeCharset c (c.toLowercase (s.content p.memory)) r.value with
          | none => exact trivial
          | some y => rw [hx, hy] at this; exact this.elim
        | some x =>
          cases hy : decodeCharset c (c.toLowercase (s.content p.memory)) r.value with
          | none => rw [hx, hy] at this; exact this.elim
          | some y =>
            rw [hx, hy] at this
            exact AlikeO.bind this fun v t h => ⟨rfl, rfl, h.1, _, hg.symm, h.2⟩
    · rw [if_neg ht, if_neg fun h => ht (content_text.mpr h)]
      exact trivial

/-! ### All strings -/

theorem AlikeO.mapOutcome {α β : Type} {f : α → β} {x : Outcome α} {y : Outcome β} {R : β → α → Prop} (h : AlikeO x y R)
    (hf : ∀ v s, R v s → f s = v) : Spec.mapOutcome f x = y := by
  unfold AlikeO at h
  split at h
  · exact congrArg Outcome.ok (hf _ _ h)
  · exact congrArg Outcome.err h
  · exact congrArg Outcome.abort h
  · exact h.elim

theorem AlikeO.left {α β : Type} {x : Outcome α} {y : Outcome β} {R : β → α → Prop} {s : α} (h : AlikeO x y R)
    (hx : x = .ok s) : ∃ v, y = .ok v ∧ R v s := by
  subst hx
  cases y with
  | ok v => exact ⟨v, rfl, h⟩
  | err e => exact h.elim
  | abort k => exact h.elim

/-- What holds of all strings of an entity that was read from the text `i`. -/
def AllGood (l : Literals) (lo hi : Nat) (i : Bytes) (s : CowRawEntity) : Prop :=
  ∀ t ∈ strings s, (IsLiteral l t ∨ Within lo hi t) ∧ ∀ x, t = .owned x → CopyReason i x ∨ s.value = .owned x

theorem isLiteral_borrowed {l : Literals} {t : CowStr} (h : IsLiteral l t) : ¬ Owned t := by
  rcases h with rfl | rfl | rfl <;> exact id

theorem RawKept.all {l : Literals} {i : Bytes} (hi : At p i) {v : RawEntity} {s : CowRawEntity} (h : RawKept c p l i v s) :
    AllGood l (p.addr i) p.stop i s := by
  obtain ⟨head, rest, body, hs, rfl, -, hr, -, h2, h3⟩ := h
  intro t ht
  rcases h2 t ht with (h | h) | rfl
  · exact ⟨.inl h, fun x hx => by subst hx; exact (isLiteral_borrowed h trivial).elim⟩
  · exact ⟨.inr h.1, fun x hx => .inl ((h.2 x hx).mono ⟨[], rest, rfl⟩)⟩
  · refine ⟨.inr ?_, fun x hx => .inr hx⟩
    rcases h3 with h | ⟨h, -⟩
    · rw [h]
      have hle : body.length ≤ (head ++ rest).length := by
        rcases hr with ⟨rfl, rfl⟩ | rfl
        · exact Nat.zero_le _
        · simp only [List.length_append, List.length_cons]
          omega
      have := hi.1
      refine .inr ⟨?_, ?_⟩ <;> unfold Place.addr <;> omega
    · cases hv : s.value with
      | owned x => trivial
      | borrowed a n => rw [hv] at h; exact h.elim

theorem read_infix {i w : Bytes} {a b : Nat} (hi : m.read a i.length = i) (hw : m.read b w.length = w) (hl : a ≤ b)
    (hr : b + w.length ≤ a + i.length) : w <:+: i := by
  have e : i.length = (b - a) + (w.length + (a + i.length - (b + w.length))) := by omega
  rw [e, read_append, read_append, show a + (b - a) = b by omega, hw] at hi
  exact ⟨_, _, by rw [List.append_assoc]; exact hi⟩

theorem PartEntityGood.all {l : Literals} {i part : Bytes} (hi : At p i) {v : RawEntity} {s : CowRawEntity}
    (h : PartEntityGood c p l (p.addr i) part v s) : AllGood l (p.addr i) p.stop i s := by
  obtain ⟨a, h1, h2, h3, h4⟩ := h
  have hat : At (p.part a part.length) part := part_at (s := (a, part)) (lo := a) ⟨rfl, Nat.le_refl _, h2, h3⟩
  have haddr : (p.part a part.length).addr part = a := Nat.add_sub_cancel ..
  have hinf : part <:+: i := by
    refine read_infix hi.2 h3 h1 ?_
    have := hi.1
    unfold Place.addr
    omega
  intro t ht
  obtain ⟨h5, h6⟩ := h4.all hat t ht
  refine ⟨h5.imp id fun h => ?_, fun x hx => (h6 x hx).imp (fun h => h.mono hinf) id⟩
  rw [haddr] at h
  cases t with
  | owned x => trivial
  | borrowed b n =>
    have hstop : (p.part a part.length).stop = a + part.length := rfl
    rw [hstop] at h
    rcases h with h | ⟨h, h'⟩
    · exact .inl h
    · exact .inr ⟨by omega, by omega⟩

theorem PartEntitiesGood.cases {l : Literals} {parts : List Bytes} {vs : List RawEntity} {ss : List CowRawEntity}
    (h : PartEntitiesGood c p l lo parts vs ss) : (vs = [] ∧ ss = []) ∨ ∃ part parts' v vs' s ss', vs = v :: vs' ∧ ss = s :: ss' ∧
      PartEntityGood c p l lo part v s ∧ PartEntitiesGood c p l lo parts' vs' ss' := by
  cases parts <;> cases vs <;> cases ss <;> first | exact h.elim | skip
  · exact .inl ⟨rfl, rfl⟩
  · exact .inr ⟨_, _, _, _, _, _, rfl, rfl, h.1, h.2⟩

theorem PartEntitiesGood.contents {l : Literals} {ss : List CowRawEntity} : ∀ {parts : List Bytes} {vs : List RawEntity},
    PartEntitiesGood c p l lo parts vs ss → ss.map (content p.memory) = vs := by
  induction ss with
  | nil =>
    intro parts vs h
    rcases h.cases with ⟨rfl, -⟩ | ⟨_, _, _, _, _, _, _, h, _⟩
    · rfl
    · cases h
  | cons s ss ih =>
    intro parts vs h
    rcases h.cases with ⟨-, h⟩ | ⟨_, _, v, vs', s', ss', rfl, h, h1, h2⟩
    · cases h
    · cases h
      obtain ⟨a, -, -, -, head, rest, body, hs, -, -, -, h1, -⟩ := h1
      have h1 : content p.memory s = v := h1
      rw [List.map_cons, h1, ih h2]

theorem PartEntitiesGood.all {l : Literals} {i : Bytes} (hi : At p i) {ss : List CowRawEntity} : ∀ {parts : List Bytes}
    {vs : List RawEntity}, PartEntitiesGood c p l (p.addr i) parts vs ss → ∀ s ∈ ss, AllGood l (p.addr i) p.stop i s := by
  induction ss with
  | nil => intro _ _ _ s hs; cases hs
  | cons s ss ih =>
    intro parts vs h x hx
    rcases h.cases with ⟨-, h⟩ | ⟨_, _, v, vs', s', ss', rfl, h, h1, h2⟩
    · cases h
    · cases h
      rcases List.mem_cons.mp hx with rfl | hx
      · exact h1.all hi
      · exact ih h2 x hx

theorem ParsedGood.contents {l : Literals} {raw : CowRawEntity} {i : Bytes} {v : Entity} {s : CowEntity}
    (h : ParsedGood c p l raw i v s) : content p.memory s = v := by
  cases v <;> cases s <;> first | exact h.elim | skip
  · obtain ⟨-, h1, parts, h2⟩ := h
    exact congr (congrArg _ h1) h2.contents
  · obtain ⟨-, h1, h2, -⟩ := h
    exact congr (congrArg _ h1) h2
  · rfl

end EmailParser
