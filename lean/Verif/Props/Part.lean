import Verif.Proofs.Complete.Part
/-
C54, C55: parts of multipart messages, and trees of parts, are read back as they were written.
-/
namespace EmailParser
open Spec

variable (c : Cfg)

/-! ### C54 -/

theorem decodeValue_iff (encoding : Option ContentTransferEncoding) (body value : Bytes) :
    decodeValue body (encoding.getD .sevenBit) = .ok value ↔ Decoded encoding body value := by
  cases encoding with
  | none => simp [decodeValue, Decoded, eq_comm]
  | some e =>
    cases e <;> simp [decodeValue, Decoded, decodeBase64_eq, decodeQp_eq, eq_comm]

/-- A part of which every line is laid out in any permitted way is read as exactly its headers (the last of each kind,
and all others) and its decoded body; it is rejected only if the body cannot be decoded. -/
theorem C54_any_layout (i body : Bytes) (hs : List EntityHeader) (h : PartL c i hs body) :
    (∀ e, rawEntity c i = .ok e ↔ ∃ v, Decoded (partEncoding hs) body v ∧ e = partValue hs v) ∧
    ((∃ x, rawEntity c i = .err x) ↔ ¬ ∃ v, Decoded (partEncoding hs) body v) := by
  rw [partL_rawEntity h]
  have key := decodeValue_iff (partEncoding hs) body
  cases hd : decodeValue body ((partEncoding hs).getD .sevenBit) with
  | abort k => exact absurd hd (decodeValue_no_abort _ _ k)
  | err x =>
    rw [hd] at key
    refine ⟨fun e => ⟨nofun, ?_⟩, ⟨fun _ ⟨v, hv⟩ => ?_, fun _ => ⟨x, rfl⟩⟩⟩
    · rintro ⟨v, hv, -⟩
      cases (key v).mpr hv
    · cases (key v).mpr hv
  | ok v =>
    rw [hd] at key
    have hv := (key v).mp rfl
    refine ⟨fun e => ⟨?_, ?_⟩, ⟨nofun, fun hn => absurd ⟨v, hv⟩ hn⟩⟩
    · intro h
      cases h
      exact ⟨v, hv, rfl⟩
    · rintro ⟨v', hv', rfl⟩
      cases (key v').mpr hv'
      rfl

theorem partValid_layout {h : MailHeader} (hv : h.PartValid c) (e : EntityHeader) (he : partField e = h.field) :
    PartHeaderL c h.text e := by
  unfold MailHeader.text
  cases h with
  | other n v =>
    cases e <;> cases he
    obtain ⟨h1, h2, h3, h4⟩ := hv
    exact .other h1 h2 h3 (text_layout h4)
  | contentType v =>
    have := value_layout (c := c) (h := .contentType v) rfl hv
    rw [← he] at this
    exact .known (by rw [he]; rfl) this.2 this.1
  | contentTransferEncoding v =>
    have := value_layout (c := c) (h := .contentTransferEncoding v) rfl hv
    rw [← he] at this
    exact .known (by rw [he]; rfl) this.2 this.1
  | contentId v =>
    have := value_layout (c := c) (h := .contentId v) rfl hv
    rw [← he] at this
    exact .known (by rw [he]; rfl) this.2 this.1
  | contentDescription v =>
    have := value_layout (c := c) (h := .contentDescription v) rfl hv
    rw [← he] at this
    exact .known (by rw [he]; rfl) this.2 this.1
  | contentDisposition v =>
    have := value_layout (c := c) (h := .contentDisposition v) rfl hv
    rw [← he] at this
    exact .known (by rw [he]; rfl) this.2 this.1
  | _ => cases e <;> cases he

/-- The headers of a part. -/
def partHeaders (p : MailPart) : List EntityHeader :=
  p.contentType.toList.map (fun v => .type v.value) ++ (p.encoding.toList.map .encoding ++
  (p.contentId.toList.map .id ++ (p.description.toList.map .description ++
  (p.disposition.toList.map (fun v => .disposition v.value) ++ p.others.map fun v => .other v.1 v.2))))

theorem partHeaders_field (p : MailPart) : (partHeaders p).map partField = p.headers.map MailHeader.field := by
  simp only [partHeaders, MailPart.headers, List.map_append, List.map_map, Function.comp_def, partField,
    MailHeader.field]

theorem partHeaders_layout (hs : List MailHeader) (hv : ∀ h ∈ hs, h.PartValid c) (es : List EntityHeader)
    (he : es.map partField = hs.map MailHeader.field) :
    LinesL (PartHeaderL c) (hs.flatMap MailHeader.text) es := by
  induction hs generalizing es with
  | nil =>
    cases es with
    | nil => exact .nil
    | cons e es => cases he
  | cons h hs ih =>
    cases es with
    | nil => cases he
    | cons e es =>
      simp only [List.map_cons, List.cons.injEq] at he
      exact .cons (partValid_layout c (hv h (by simp)) e he.1) (ih (fun h hh => hv h (by simp [hh])) es he.2)

theorem filterMap_others {α : Type} (o : List (Bytes × Bytes)) {g : EntityHeader → Option α}
    (hg : ∀ n v, g (.other n v) = none) : List.filterMap g (o.map fun v => EntityHeader.other v.1 v.2) = [] := by
  induction o <;> simp_all

theorem filterMap_otherOf (o : List (Bytes × Bytes)) :
    List.filterMap otherOf (o.map fun v => EntityHeader.other v.1 v.2) = o := by
  induction o with
  | nil => rfl
  | cons x o ih => rw [List.map_cons, List.filterMap_cons, ih]; rfl

theorem partValue_part (p : MailPart) (v : Bytes) : partValue (partHeaders p) v = { p.entity with value := v } := by
  obtain ⟨t, e, i, d, s, o, b⟩ := p
  unfold partValue lastOf MailPart.entity partHeaders
  simp only [List.filterMap_append, filterMap_otherOf, filterMap_others o (g := typeOf) (fun _ _ => rfl),
    filterMap_others o (g := descriptionOf) (fun _ _ => rfl), filterMap_others o (g := idOf) (fun _ _ => rfl),
    filterMap_others o (g := partDispositionOf) (fun _ _ => rfl)]
  cases t <;> cases e <;> cases i <;> cases d <;> cases s <;> rfl

theorem partEncoding_part (p : MailPart) : partEncoding (partHeaders p) = p.encoding := by
  obtain ⟨t, e, i, d, s, o, b⟩ := p
  unfold partEncoding lastOf partHeaders
  simp only [List.filterMap_append, filterMap_others o (g := partEncodingOf) (fun _ _ => rfl)]
  cases t <;> cases e <;> cases i <;> cases d <;> cases s <;> rfl

/-- Writing any part in canonical form and reading it gives back that part. -/
theorem C54_round_trip (p : MailPart) (hv : p.Valid c) : rawEntity c p.text = .ok p.entity := by
  have h : PartL c p.text (partHeaders p) (encodeBody p.encoding p.body) :=
    ⟨_, _, rfl, partHeaders_layout c _ hv _ (partHeaders_field p), .body⟩
  rw [partL_rawEntity h, partEncoding_part, decodeValue_encodeBody]
  · exact congrArg Outcome.ok (partValue_part p p.body)
  · intro name he
    exact hv (.contentTransferEncoding (.unknown name)) (by simp [MailPart.headers, he]) name rfl

/-- A part with a base64 body and a header of its own. -/
def examplePart : MailPart where
  contentType := some ⟨b! "text", b! "HTML", [(b! "charset", b! "utf-8")]⟩
  encoding := some .base64
  description := some (b! " note")
  others := [(b! "Subject", b! " mine")]
  body := b! "<p>"

theorem examplePart_valid : examplePart.Valid (Cfg.concrete .full) := by
  have text : ∀ x encoded, x.all (fun b => vchar b || wsp b) = true → x.getLast?.all (fun b => !wsp b) = true →
      61 ∉ x → ValidText encoded x := fun x encoded h1 h2 h3 =>
    ⟨fun b hb => by simpa using List.all_eq_true.1 h1 b hb, solid_of_getLast h2, fun _ ⟨u, v, e⟩ => h3 (by simp [← e])⟩
  intro h hh
  simp only [examplePart, MailPart.headers, Option.toList, List.map, List.nil_append, List.cons_append,
    List.mem_cons, List.not_mem_nil, or_false] at hh
  rcases hh with rfl | rfl | rfl | rfl
  · refine ⟨⟨by simp, by decide +kernel, .inl (by decide +kernel)⟩, ⟨by simp, by decide +kernel⟩, ?_⟩
    simp [ValidParams, Spec.Printable]
    decide +kernel
  · simp [MailHeader.PartValid, MailHeader.Writable]
  · exact text _ _ rfl rfl (by decide +kernel)
  · exact ⟨by simp, by decide +kernel, by decide +kernel, text _ _ rfl rfl (by decide +kernel)⟩

example : examplePart.text = b! "Content-Type: text/HTML; charset=\"utf-8\"\r\nContent-Transfer-Encoding: base64\r\nContent-Description: note\r\nSubject: mine\r\n\r\nPHA+" := by
  decide +kernel

example : rawEntity (Cfg.concrete .full) examplePart.text = .ok examplePart.entity :=
  C54_round_trip _ _ examplePart_valid

example : (examplePart.entity.subtype, examplePart.entity.value, examplePart.entity.parameters (b! "charset"),
    examplePart.entity.additionalHeaders) =
    (b! "html", b! "<p>", some (b! "utf-8"), [(b! "Subject", b! " mine")]) := by decide +kernel

/-- Names in any case, comments, folds, a header twice. -/
example : (outcomeValue (rawEntity (Cfg.concrete .full) (b! "CONTENT-ID: <a@b>\r\ncontent-transfer-encoding:\r\n (x) Quoted-Printable (y)\r\ncontent-id: (z)<c@d>\r\nX: 1\r\n 2\r\n\r\na=3Db"))).map
    (fun e => (e.id, e.value, e.additionalHeaders)) =
    some (some (b! "c", b! "d"), b! "a=b", [(b! "X", b! " 1 2")]) := by decide +kernel

/-! ### C55 -/

/-- The entity is the root of the tree, and reading its parts gives the roots of the children, and so on. -/
inductive Reads : RawEntity → MailTree → Prop
  | leaf {p} : Reads p.entity (.leaf p)
  | node {part boundary preamble first others epilogue raw e es} :
      raw = (MailTree.node part boundary preamble first others epilogue).part.entity →
      raw.parse c = .ok (.multipart raw.subtype (e :: es)) → Reads e first → es.length = others.length →
      (∀ x ∈ es.zip others, Reads x.1 x.2) →
      Reads raw (.node part boundary preamble first others epilogue)

theorem lastWith_mem {α : Type} {p : α → Bool} {l : List α} {x : α} (h : lastWith p l = some x) : x ∈ l :=
  (List.mem_filter.mp (List.mem_of_getLast? h)).1

theorem texts_map : ∀ ts : List MailTree, MailTree.texts ts = ts.map MailTree.text
  | [] => rfl
  | t :: ts => by rw [MailTree.texts, texts_map ts]; rfl

theorem boundary_no_cr {t : MailType} {b : Bytes} (hv : ValidParams t.params)
    (h : t.value.2.2 (b! "boundary") = some b) : (13 : UInt8) ∉ b := by
  obtain ⟨p, hp, rfl⟩ := Option.map_eq_some_iff.mp h
  intro hc
  have := (hv p (lastWith_mem hp)).2.2 13 hc
  revert this
  decide

theorem tree_part_valid {t : MailTree} (h : t.Valid c) : t.part.Valid c := by
  cases h with
  | leaf h => exact h
  | node h => exact h

theorem tree_rawEntity {t : MailTree} (h : t.Valid c) : rawEntity c t.text = .ok t.part.entity :=
  C54_round_trip c _ (tree_part_valid c h)

/-- The children of a multipart body are read. -/
theorem children_parse {raw : RawEntity} {boundary : Bytes} {preamble : Option Bytes} {first : MailTree}
    {others : List MailTree} {epilogue : Bytes} (hm : raw.mimeType = .multipart)
    (hb : raw.parameters (b! "boundary") = some boundary) (hcr : (13 : UInt8) ∉ boundary)
    (hpre : ∀ x, preamble = some x → NoBoundaryLine boundary x)
    (hno : ∀ t ∈ first :: others, NoBoundaryLine boundary t.text) (hepi : NoBoundaryLine boundary epilogue)
    (hv : ∀ t ∈ first :: others, t.Valid c)
    (hr : raw.value = joinParts boundary preamble first.text (others.map MailTree.text) epilogue) :
    raw.parse c = .ok (.multipart raw.subtype ((first :: others).map fun t => t.part.entity)) := by
  refine C40_parse_join c raw boundary preamble first.text (others.map MailTree.text) epilogue hcr hpre ?_ hepi hm hb
    hr _ ?_
  · rw [← List.map_cons]
    intro p hp
    obtain ⟨t, ht, rfl⟩ := List.mem_map.mp hp
    exact hno t ht
  · rw [← List.map_cons, List.map_map, List.map_map]
    exact List.map_congr_left fun t ht => tree_rawEntity c (hv t ht)

theorem zip_map_entity {P : RawEntity → MailTree → Prop} {ts : List MailTree} (h : ∀ t ∈ ts, P t.part.entity t) :
    ∀ x ∈ (ts.map fun t => t.part.entity).zip ts, P x.1 x.2 := by
  induction ts with
  | nil => simp
  | cons t ts ih =>
    intro x hx
    rw [List.map_cons, List.zip_cons_cons] at hx
    rcases List.mem_cons.mp hx with rfl | hx
    · exact h t (by simp)
    · exact ih (fun t ht => h t (by simp [ht])) x hx

theorem tree_reads {t : MailTree} (h : t.Valid c) : Reads c t.part.entity t := by
  induction h with
  | leaf => exact .leaf
  | @node part type boundary preamble first others epilogue hp ht hm hb hpre hno hepi hf ho ihf iho =>
    have hv : ∀ t ∈ first :: others, t.Valid c := by
      intro t h
      rcases List.mem_cons.mp h with rfl | h
      · exact hf
      · exact ho t h
    have hty : ValidParams type.params :=
      (hp (.contentType type) (by simp [MailPart.headers, ht]) : MailHeader.Writable c (.contentType type)).2.2
    refine .node (e := first.part.entity) (es := others.map fun t => t.part.entity) rfl ?_ ihf (by simp)
      (zip_map_entity iho)
    refine children_parse c (boundary := boundary) ?_ ?_ (boundary_no_cr hty hb) hpre hno hepi hv ?_
    · show ((part.contentType.map MailType.value).getD plainText).1 = _
      rw [ht]
      exact hm
    · show ((part.contentType.map MailType.value).getD plainText).2.2 _ = _
      rw [ht]
      exact hb
    · show joinParts boundary preamble first.part.text (MailTree.texts others) epilogue = _
      rw [texts_map]
      rfl

/-- Writing any tree of parts and reading it, level by level, gives back that tree: each part with its headers and its
decoded body, each multipart part with all its children in order. -/
theorem C55_tree (t : MailTree) (h : t.Valid c) : ∃ raw, rawEntity c t.text = .ok raw ∧ Reads c raw t :=
  ⟨_, tree_rawEntity c h, tree_reads c h⟩

/-- The same for a whole message of which the body is made of such trees. -/
theorem C55_message (hc : c.feat.compiles) (hm : c.feat.mime = true) (m : Letter) (hv : m.Valid c) (type : MailType)
    (boundary : Bytes) (preamble : Option Bytes) (first : MailTree) (others : List MailTree) (epilogue : Bytes)
    (ht : m.contentType = some type) (hmul : type.value.1 = .multipart)
    (hb : type.value.2.2 (b! "boundary") = some boundary)
    (hpre : ∀ x, preamble = some x → NoBoundaryLine boundary x)
    (hno : ∀ t ∈ first :: others, NoBoundaryLine boundary t.text) (hepi : NoBoundaryLine boundary epilogue)
    (hvt : ∀ t ∈ first :: others, t.Valid c)
    (hbody : m.body = some (joinParts boundary preamble first.text (others.map MailTree.text) epilogue)) :
    ∃ email raw entities, Email.parse c m.text = .ok email ∧ email.mimeEntity = some raw ∧
      raw.parse c = .ok (.multipart (type.subtype.map asciiLower) entities) ∧
      entities.length = others.length + 1 ∧ ∀ x ∈ entities.zip (first :: others), Reads c x.1 x.2 := by
  have h := C51_round_trip c hc m hv
  obtain ⟨raw, h1, h2, h3, h4, h5⟩ : ∃ raw, (m.email c.feat).mimeEntity = some raw ∧ raw.mimeType = type.value.1 ∧
      raw.subtype = type.subtype.map asciiLower ∧ raw.parameters = type.value.2.2 ∧ raw.value = m.body.getD [] := by
    unfold Letter.email
    dsimp only
    rw [if_pos hm, ht]
    refine ⟨_, rfl, ?_⟩
    exact ⟨rfl, rfl, rfl, rfl⟩
  refine ⟨_, raw, (first :: others).map fun t => t.part.entity, h, h1, ?_, by simp,
    zip_map_entity fun t ht => tree_reads c (hvt t ht)⟩
  rw [← h3]
  have hty : ValidParams type.params := (hv.headers (.contentType type) (by simp [Letter.headers, ht])).1.2.2
  exact children_parse c (boundary := boundary) (h2.trans hmul) (by rw [h4]; exact hb) (boundary_no_cr hty hb) hpre hno
    hepi hvt (by rw [h5, hbody]; rfl)

/-- A multipart part with a part and, in it, another multipart part that is encoded. -/
def exampleTree : MailTree :=
  .node { contentType := some ⟨b! "multipart", b! "mixed", [(b! "boundary", b! "b")]⟩ } (b! "b") (some (b! "pre"))
    (.leaf examplePart)
    [.node { contentType := some ⟨b! "Multipart", b! "related", [(b! "boundary", b! "b")]⟩, encoding := some .base64 }
      (b! "b") none (.leaf { body := b! "1" }) [.leaf { body := b! "--b\r\n".drop 1 }] []] (b! "end")

theorem exampleTree_valid : exampleTree.Valid (Cfg.concrete .full) := by
  have type : ∀ t st : Bytes, t ≠ [] → (t.all fun b => tokenChar b) = true → t.map asciiLower ∈ typeNames.map (·.1) →
      st ≠ [] → (st.all fun b => tokenChar b) = true →
      MailHeader.Writable (Cfg.concrete .full) (.contentType ⟨t, st, [(b! "boundary", b! "b")]⟩) := by
    intro t st h1 h2 h3 h4 h5
    refine ⟨⟨h1, by simpa using h2, .inl h3⟩, ⟨h4, by simpa using h5⟩, ?_⟩
    simp [ValidParams, Spec.Printable]
    decide +kernel
  have plain : ∀ b : Bytes, MailPart.Valid (Cfg.concrete .full) { body := b } := by
    intro b h hh
    simp [MailPart.headers] at hh
  refine .node (type := ⟨b! "multipart", b! "mixed", [(b! "boundary", b! "b")]⟩) ?_ rfl (by decide +kernel)
    (by decide +kernel) ?_ ?_ ?_ (.leaf examplePart_valid) ?_
  · intro h hh
    simp only [MailPart.headers, Option.toList, List.map, List.nil_append, List.cons_append, List.mem_cons,
      List.not_mem_nil, or_false] at hh
    subst hh
    exact type _ _ (by simp) (by decide +kernel) (by decide +kernel) (by simp) (by decide +kernel)
  · intro x hx
    cases hx
    unfold NoBoundaryLine
    decide +kernel
  · unfold NoBoundaryLine
    decide +kernel
  · unfold NoBoundaryLine
    decide +kernel
  · intro t ht
    rw [List.mem_singleton] at ht
    subst ht
    refine .node (type := ⟨b! "Multipart", b! "related", [(b! "boundary", b! "b")]⟩) ?_ rfl (by decide +kernel)
      (by decide +kernel) (by simp) ?_ ?_ (.leaf (plain _)) ?_
    · intro h hh
      simp only [MailPart.headers, Option.toList, List.map, List.nil_append, List.cons_append, List.mem_cons,
        List.not_mem_nil, or_false] at hh
      rcases hh with rfl | rfl
      · exact type _ _ (by simp) (by decide +kernel) (by decide +kernel) (by simp) (by decide +kernel)
      · simp [MailHeader.PartValid, MailHeader.Writable]
    · unfold NoBoundaryLine
      decide +kernel
    · unfold NoBoundaryLine
      decide +kernel
    · intro t ht
      rw [List.mem_singleton] at ht
      subst ht
      exact .leaf (plain _)

example : exampleTree.text = b! "Content-Type: multipart/mixed; boundary=\"b\"\r\n\r\npre\r\n--b\r\nContent-Type: text/HTML; charset=\"utf-8\"\r\nContent-Transfer-Encoding: base64\r\nContent-Description: note\r\nSubject: mine\r\n\r\nPHA+\r\n--b\r\nContent-Type: Multipart/related; boundary=\"b\"\r\nContent-Transfer-Encoding: base64\r\n\r\nLS1iDQoNCjENCi0tYg0KDQotYg0KDQotLWItLQ0K\r\n--b--\r\nend" := by
  decide +kernel

example : ∃ raw, rawEntity (Cfg.concrete .full) exampleTree.text = .ok raw ∧ Reads (Cfg.concrete .full) raw exampleTree :=
  C55_tree _ _ exampleTree_valid

/-- For any texts there is a boundary that is not in them. -/
theorem C55_boundary_exists (texts : List Bytes) : ∃ boundary, boundary ≠ [] ∧
    (∀ b ∈ boundary, tokenChar b = true) ∧ ∀ x ∈ texts, NoBoundaryLine boundary x := by
  refine ⟨List.replicate ((texts.map List.length).sum + 1) 98, by simp, ?_, ?_⟩
  · intro b hb
    rw [(List.mem_replicate.mp hb).2]
    decide
  · rintro x hx ⟨s, t, e⟩
    have := congrArg List.length e
    simp [dashBoundary, CRLF] at this
    have h2 : x.length ≤ (texts.map List.length).sum := by
      clear e this
      induction texts with
      | nil => cases hx
      | cons y l ih =>
        rcases List.mem_cons.mp hx with rfl | hx
        · simp
        · have := ih hx
          simp
          omega
    omega

end EmailParser
