import Verif.Proofs.SizeMime
/-
The size of header fields, of MIME entities and of e-mails.
-/
namespace EmailParser
open Spec HasStrings

variable {α β γ δ : Type} {c : Cfg} {p : Place} {K : Nat}

/-! ### Header fields -/

theorem dateField_light (i : Bytes) : Light K i (dateField c i) := by
  refine (parses_times K (dateField_parses (c := c)) i).mono fun a ha => ?_
  rw [size_date]
  omega

theorem resentDate_light (i : Bytes) : Light K i (resentDate c i) := resent_light dateField_light i

theorem mimeVersion_light (i : Bytes) : Light K i (mimeVersion c i) := by
  refine (parses_times K (mimeVersion_parses (c := c)) i).mono fun a ha => ?_
  have : size a.2 = 0 := rfl
  omega

theorem enabled_mem {b : Bool} {x q : α} (h : q ∈ enabled b x) : q = x := by
  cases b with
  | true => exact List.mem_singleton.mp h
  | false => cases h

section
variable (H : Converts K c)
include H

theorem cowBccValue_light (i : Bytes) : Light K i (cowBccValue c p i) := by
  unfold cowBccValue
  refine (cowAddressList_light (p := p) H i).cases (fun a e ha => ?_) (fun _ e => ?_) fun _ e => ?_ <;> rw [e]
  · exact .ok ha
  · refine (parses_times K (cfws_parses (c := c)) i).cases (fun a e ha => ?_) (fun _ e => ?_) fun _ e => ?_ <;> dsimp only <;> rw [e]
    · exact .ok (by dsimp only; rw [size_nil]; omega)
    · exact .err
    · exact .abort
  · exact .abort

theorem cowTextValue_light (i : Bytes) : LightValue K i (cowTextValue c p i) := by
  unfold cowTextValue
  split
  · exact cowMimeUnstructured_light H i
  · exact cowUnstructured_light H i

theorem cowUnknownValue_light (i : Bytes) : LightValue K i (cowUnknownValue c p i) := by
  unfold cowUnknownValue
  split
  · exact cowMimeUnstructured_light H i
  · exact cowUnstructured_light H i

theorem cowFromField_light (i : Bytes) : Light K i (cowFromField c p i) :=
  headerLine_light (by decide +kernel) (fun i => (cowMailboxList_light H i).value) i

theorem cowSenderField_light (i : Bytes) : Light K i (cowSenderField c p i) :=
  headerLine_light (by decide +kernel) (fun i => (cowMailbox_light H i).value) i

theorem cowReplyToField_light (i : Bytes) : Light K i (cowReplyToField c p i) :=
  headerLine_light (by decide +kernel) (fun i => (cowAddressList_light H i).value) i

theorem cowToField_light (i : Bytes) : Light K i (cowToField c p i) :=
  headerLine_light (by decide +kernel) (fun i => (cowAddressList_light H i).value) i

theorem cowCcField_light (i : Bytes) : Light K i (cowCcField c p i) :=
  headerLine_light (by decide +kernel) (fun i => (cowAddressList_light H i).value) i

theorem cowBccField_light (i : Bytes) : Light K i (cowBccField c p i) :=
  headerLine_light (by decide +kernel) (fun i => (cowBccValue_light H i).value) i

theorem cowMessageIdField_light (i : Bytes) : Light K i (cowMessageIdField c p i) :=
  headerLine_light (by decide +kernel) (fun i => (cowMessageId_light H i).value) i

theorem cowInReplyToField_light (i : Bytes) : Light K i (cowInReplyToField c p i) :=
  headerLine_light (by decide +kernel) (fun i => (many1_light (cowMessageId_light H) i).value) i

theorem cowReferencesField_light (i : Bytes) : Light K i (cowReferencesField c p i) :=
  headerLine_light (by decide +kernel) (fun i => (many1_light (cowMessageId_light H) i).value) i

theorem cowSubjectField_light (i : Bytes) : Light K i (cowSubjectField c p i) :=
  headerLine_light (by decide +kernel) (cowTextValue_light H) i

theorem cowCommentsField_light (i : Bytes) : Light K i (cowCommentsField c p i) :=
  headerLine_light (by decide +kernel) (cowTextValue_light H) i

theorem cowKeywordsField_light (i : Bytes) : Light K i (cowKeywordsField c p i) :=
  headerLine_light (by decide +kernel) (fun i => (list_light (cowPhrase_light H) i).value) i

theorem cowContentType_light (i : Bytes) : Light K i (EmailParser.cowContentType c p i) :=
  headerLine_light (by decide +kernel) (fun i => (cowContentTypeValue_light H i).value) i

theorem cowContentDisposition_light (i : Bytes) : Light K i (cowContentDisposition c p i) :=
  headerLine_light (by decide +kernel) (fun i => (cowContentDispositionValue_light H i).value) i

theorem cowTransferEncoding_light (i : Bytes) : Light K i (EmailParser.cowTransferEncoding c p i) :=
  headerLine_light (by decide +kernel) (fun i => (cowEncodingValue_light H i).value) i

theorem cowContentId_light (i : Bytes) : Light K i (cowContentId c p i) :=
  headerLine_light (by decide +kernel) (fun i => (cowMessageId_light H i).value) i

theorem cowContentDescription_light (i : Bytes) : Light K i (cowContentDescription c p i) :=
  headerLine_light (by decide +kernel) (cowMimeUnstructured_light H) i

theorem cowReturnPath_light (i : Bytes) : Light K i (cowReturnPath c p i) := by
  refine headerLine_light (by decide +kernel) (fun i => Light.value (matchParsers_light ?_)) i
  simp only [List.mem_cons, List.not_mem_nil, or_false]
  rintro q (rfl | rfl)
  · exact (cowAngleAddr_light H i).bind fun a ha => .ok ha
  · refine Yields.bind (P := fun a : Bytes × Unit => K * a.1.length ≤ K * i.length) ?_ fun a ha => .ok ?_
    · unfold emptyPath
      refine (skipCfws_times K i).bind fun r1 h1 => (tag_times K _ (by decide)).bind fun a2 h2 => (skipCfws_times K _).bind
        fun r3 h3 => (tag_times K _ (by decide)).bind fun a4 h4 => (skipCfws_times K _).bind fun r5 h5 => .ok ?_
      dsimp only
      omega
    · dsimp only
      rw [size_none]
      omega

theorem cowReceivedToken_light (i : Bytes) : Light K i (cowReceivedToken c p i) := by
  unfold cowReceivedToken
  have hd : Light K i (cowDomain c p i) := (cowDomain_short i).light H.two
  refine (cowWord_light (p := p) H i).cases (fun a e ha => ?_) (fun _ e => ?_) fun _ e => ?_ <;> rw [e] <;> dsimp only
  · refine hd.cases (fun b e hb => ?_) (fun _ e => ?_) fun _ e => ?_ <;> rw [e] <;> dsimp only
    · split
      · exact .ok hb
      · exact .ok ha
    · exact .ok ha
    · exact .abort
  · refine (cowAngleAddr_light (p := p) H i).cases (fun a e ha => ?_) (fun _ e => ?_) fun _ e => ?_ <;> rw [e] <;> dsimp only
    · exact .ok ha
    · refine (cowEmailAddress_light (p := p) H i).cases (fun a e ha => ?_) (fun _ e => ?_) fun _ e => ?_ <;> rw [e] <;> dsimp only
      · exact .ok ha
      · refine hd.cases (fun b e hb => ?_) (fun _ e => ?_) fun _ e => ?_ <;> rw [e] <;> dsimp only
        · exact .ok hb
        · exact .err
        · exact .abort
      · exact .abort
    · exact .abort
  · exact .abort

theorem cowReceived_light (i : Bytes) : Light K i (cowReceived c p i) := by
  refine headerLine_light (by decide +kernel) (fun i => Light.value ?_) i
  unfold cowReceivedValue
  refine (many_light (cowReceivedToken_light H) i).bind fun a1 h1 => (tag_times K _ (by decide)).bind fun a2 h2 =>
    (parses_times K (dateTime_parses (c := c)) _).bind fun a3 h3 => .ok ?_
  dsimp only at *
  rw [size_pair, size_date]
  omega

theorem cowUnknown_light (i : Bytes) : Light K i (cowUnknown c p i) := by
  unfold cowUnknown
  refine (takeWhile1_gives _ i).bind fun a1 h1 => (tag_times K _ (by decide)).bind fun a2 h2 =>
    (cowUnknownValue_light H _).bind fun a3 h3 => (tag_times K _ (by decide)).bind fun a4 h4 => .ok ?_
  have h1 := bytes_times H (Nat.le_of_eq h1.1)
  have := H.three
  dsimp only at *
  rw [size_pair, size_str, bytesOf_slice]
  omega

theorem cowTraceBlock_light (i : Bytes) : Light K i (cowTraceBlock c p i) := by
  unfold cowTraceBlock cowTrace
  refine Yields.bind (P := fun a => size a.2 + K * a.1.length ≤ K * i.length) ?_ fun a ha =>
    (many_light (K := K) (fun i => matchParsers_light ?_) _).bind fun b hb => .ok ?_
  · refine (optional_light (cowReturnPath_light H i)).bind fun a1 h1 => (many1_light (cowReceived_light H) _).bind fun a2 h2 => .ok ?_
    dsimp only at *
    rw [size_pair]
    omega
  · unfold cowTraceFieldParsers
    simp only [List.mem_cons, List.not_mem_nil, or_false]
    rintro q (rfl | rfl | rfl | rfl | rfl | rfl | rfl)
    · exact mapValue_light (resentDate_light i) fun v => Nat.le_refl _
    · exact mapValue_light (resent_light (cowFromField_light H) i) fun v => Nat.le_refl _
    · exact mapValue_light (resent_light (cowSenderField_light H) i) fun v => Nat.le_refl _
    · exact mapValue_light (resent_light (cowToField_light H) i) fun v => Nat.le_refl _
    · exact mapValue_light (resent_light (cowCcField_light H) i) fun v => Nat.le_refl _
    · exact mapValue_light (resent_light (cowBccField_light H) i) fun v => Nat.le_refl _
    · exact mapValue_light (resent_light (cowMessageIdField_light H) i) fun v => Nat.le_refl _
  · have e : size (CowField.trace a.2.1 a.2.2 b.2) = size (a.2.1, (a.2.2, b.2)) := rfl
    have e' : size a.2 = size a.2.1 + size a.2.2 := size_pair ..
    dsimp only at *
    rw [e, size_pair, size_pair]
    omega

theorem cowField_light (i : Bytes) : Light K i (cowField c p i) := by
  refine matchParsers_light fun q hq => ?_
  unfold cowFieldParsers at hq
  simp only [List.mem_append, List.mem_singleton] at hq
  rcases hq with hq | hq
  · rcases hq with ((((((((((((((((((hq | hq) | hq) | hq) | hq) | hq) | hq) | hq) | hq) | hq) | hq) | hq) | hq) | hq) | hq) | hq) |
      hq) | hq) | hq) <;> rw [enabled_mem hq]
    · exact mapValue_light (dateField_light i) fun v => Nat.le_refl _
    · exact mapValue_light (cowFromField_light H i) fun v => Nat.le_refl _
    · exact mapValue_light (cowSenderField_light H i) fun v => Nat.le_refl _
    · exact mapValue_light (cowReplyToField_light H i) fun v => Nat.le_refl _
    · exact mapValue_light (cowToField_light H i) fun v => Nat.le_refl _
    · exact mapValue_light (cowCcField_light H i) fun v => Nat.le_refl _
    · exact mapValue_light (cowBccField_light H i) fun v => Nat.le_refl _
    · exact mapValue_light (cowMessageIdField_light H i) fun v => Nat.le_refl _
    · exact mapValue_light (cowInReplyToField_light H i) fun v => Nat.le_refl _
    · exact mapValue_light (cowReferencesField_light H i) fun v => Nat.le_refl _
    · exact mapValue_light (cowSubjectField_light H i) fun v => Nat.le_refl _
    · exact mapValue_light (cowCommentsField_light H i) fun v => Nat.le_refl _
    · exact mapValue_light (mimeVersion_light i) fun v => Nat.le_refl _
    · exact mapValue_light (cowContentType_light H i) fun v => Nat.le_refl _
    · exact mapValue_light (cowTransferEncoding_light H i) fun v => Nat.le_refl _
    · exact mapValue_light (cowContentId_light H i) fun v => Nat.le_refl _
    · exact mapValue_light (cowContentDescription_light H i) fun v => Nat.le_refl _
    · exact mapValue_light (cowContentDisposition_light H i) fun v => Nat.le_refl _
    · exact mapValue_light (cowKeywordsField_light H i) fun v => Nat.le_refl _
  · rw [hq]
    exact mapValue_light (cowUnknown_light H i) fun v => Nat.le_refl _

theorem cowFields_light (i : Bytes) : Light K i (cowFields c p i) := by
  unfold cowFields
  refine Yields.bind (P := fun a => size a.2 + K * a.1.length ≤ K * i.length) ?_ fun a ha =>
    (many_light (cowField_light H) _).bind fun b hb => .ok ?_
  · unfold cowTraces
    split
    · exact many_light (cowTraceBlock_light H) i
    · exact .ok (by dsimp only; rw [size_nil]; omega)
  · dsimp only at *
    rw [size_append]
    omega

end

/-! ### MIME entities -/

theorem size_intoOwned (m : Memory) (s : CowStr) : size (s.intoOwned m) = size s := by
  show (s.content m).length + 1 + 0 = bytesOf s + 1 + 0
  rw [content_length]

theorem size_pairsIntoOwned (m : Memory) : ∀ l : List (CowStr × CowStr), size (intoOwnedPairs m l) = size l
  | [] => rfl
  | (n, v) :: l => by
    show size ((n.intoOwned m, v.intoOwned m) :: intoOwnedPairs m l) = _
    rw [size_cons, size_cons, size_pair, size_pair, size_intoOwned, size_intoOwned, size_pairsIntoOwned m l]

theorem size_typeIntoOwned (m : Memory) (t : CowContentType) : size (t.intoOwned m) = size t := by
  cases t with
  | unknown s =>
      cases s with
      | borrowed a n => exact size_intoOwned m (.borrowed a n)
      | owned x => rfl
  | _ => rfl

theorem size_dispositionIntoOwned (m : Memory) (d : CowDisposition) : size (d.intoOwned m) = size d := by
  rw [size_disposition, size_disposition]
  obtain ⟨t, f, _, _, _, u⟩ := d
  have h1 : size (t.intoOwned m) = size t := by
    cases t with
    | unknown s =>
      cases s with
      | borrowed a n => exact size_intoOwned m (.borrowed a n)
      | owned x => rfl
    | _ => rfl
  have h2 : size (f.map (CowStr.intoOwned m)) = size f := by
    cases f with
    | none => rfl
    | some s => exact size_intoOwned m s
  have h3 : size (α := CowParams) (intoOwnedPairs m u) = size (α := CowParams) u := size_pairsIntoOwned m u
  show size (t.intoOwned m) + size (f.map (CowStr.intoOwned m)) + size (α := CowParams) (intoOwnedPairs m u) = _
  rw [h1, h2, h3]

/-- The size of the headers of an entity, without the encoding. -/
def partSize (h : CowHeaderPart) : Nat :=
  size h.mimeType + size h.subtype + size (α := CowParams) h.parameters + size h.additionalHeaders + size h.id +
    size h.description + size h.disposition

theorem partSize_intoOwned (m : Memory) (h : CowHeaderPart) : partSize (h.intoOwned m) = partSize h := by
  obtain ⟨e, t, s, ps, hs, i, d, x⟩ := h
  have h1 : size (i.map fun (f, l) => (f.intoOwned m, l.intoOwned m)) = size i := by
    cases i with
    | none => rfl
    | some s =>
      show size (s.1.intoOwned m, s.2.intoOwned m) = size (s.1, s.2)
      rw [size_pair, size_pair, size_intoOwned, size_intoOwned]
  have h2 : size (d.map (CowStr.intoOwned m)) = size d := by
    cases d with
    | none => rfl
    | some s => exact size_intoOwned m s
  have h3 : size (x.map (CowDisposition.intoOwned m)) = size x := by
    cases x with
    | none => rfl
    | some s => exact size_dispositionIntoOwned m s
  have h4 : size (α := CowParams) (intoOwnedPairs m ps) = size (α := CowParams) ps := size_pairsIntoOwned m ps
  simp only [partSize, CowHeaderPart.intoOwned, size_intoOwned, size_pairsIntoOwned, size_typeIntoOwned, h1, h2, h3, h4]

/-- The size of one header of an entity, without the encoding. -/
def headerSize : CowEntityHeader → Nat
  | .encoding _ => 0
  | .type v => size v
  | .id v => size v
  | .description v => size v
  | .disposition v => size v
  | .other n v => size (n, v)

/-- The size of the headers read so far. -/
def headersSize (h : CowEntityHeaders) : Nat :=
  size h.mimeType + size h.id + size h.description + size h.disposition + size h.additionalHeaders

theorem headersSize_add (h : CowEntityHeaders) (x : CowEntityHeader) : headersSize (h.add x) ≤ headersSize h + headerSize x := by
  cases x <;> simp only [headersSize, headerSize, CowEntityHeaders.add, size_some, size_append, size_cons, size_nil] <;> omega

theorem headersSize_addAll : ∀ (xs : List CowEntityHeader) (h : CowEntityHeaders),
    headersSize (xs.foldl CowEntityHeaders.add h) ≤ headersSize h + (xs.map headerSize).sum
  | [], _ => Nat.le_refl _
  | x :: xs, h => by
    have := headersSize_add h x
    have := headersSize_addAll xs (h.add x)
    rw [List.foldl_cons, List.map_cons, List.sum_cons]
    omega

theorem size_defaultType (l : Literals) : size l.defaultType = 23 := rfl

theorem size_getD_type (l : Literals) (t : Option (CowContentType × CowStr × CowParams)) :
    size (t.getD l.defaultType) ≤ size t + 23 := by
  cases t with
  | none => exact Nat.le_refl _
  | some t => exact Nat.le_add_right _ _

theorem partSize_withDefaults (l : Literals) (h : CowEntityHeaders) : partSize (h.withDefaults l) ≤ headersSize h + 23 := by
  have h1 := size_getD_type l h.mimeType
  have h2 : size (h.mimeType.getD l.defaultType) = size (h.mimeType.getD l.defaultType).1 +
      (size (h.mimeType.getD l.defaultType).2.1 + size (h.mimeType.getD l.defaultType).2.2) :=
    (size_pair _ _).trans (congrArg _ (size_pair _ _))
  dsimp only [partSize, headersSize, CowEntityHeaders.withDefaults]
  omega

theorem mapValue_gives [HasStrings α β] {x : Bytes → Res α} {f : α → γ} {g : γ → Nat} {i : Bytes} (h : Light K i (x i))
    (hf : ∀ v, g (f v) ≤ size v) : Yields (mapValue f x i) fun a => g a.2 + K * a.1.length ≤ K * i.length := by
  unfold mapValue
  refine h.bind fun a ha => .ok ?_
  have := hf a.2
  dsimp only at *
  omega

theorem cowDecodeValue_gives (m : Memory) (hK : 3 ≤ K) (v : CowStr) (e : CowTransferEncoding) :
    Yields (cowDecodeValue m v e) fun t => bytesOf t ≤ K * bytesOf v := by
  have h1 : bytesOf v ≤ K * bytesOf v := Nat.le_mul_of_pos_left _ (by omega)
  have h3 : 3 * bytesOf v ≤ K * bytesOf v := Nat.mul_le_mul_right _ hK
  cases e with
  | base64 =>
    refine (decodeBase64_gives _).bind fun t ht => .ok ?_
    rw [content_length] at ht
    exact Nat.le_trans ht h1
  | quotedPrintable =>
    refine (decodeQp_gives _).bind fun t ht => .ok ?_
    rw [content_length] at ht
    exact Nat.le_trans ht h3
  | unknown s => exact .err
  | sevenBit => exact .ok h1
  | heightBit => exact .ok h1
  | binary => exact .ok h1

theorem size_entity (e : CowRawEntity) : size e = size e.mimeType + size e.subtype + size e.description + size e.id +
    size e.parameters + size e.disposition + size e.value + size e.additionalHeaders := by
  have h : strings e = strings e.mimeType ++ strings e.subtype ++ strings e.description ++ strings e.id ++ strings e.parameters ++
    strings e.disposition ++ strings e.value ++ strings e.additionalHeaders := rfl
  simp only [size, h, List.map_append, List.sum_append]

theorem headerEntity_gives (m : Memory) (hK : 3 ≤ K) (h : CowHeaderPart) (b : CowStr) :
    Yields (h.entity m b) fun e => size e ≤ partSize h + K * bytesOf b + 1 := by
  unfold CowHeaderPart.entity
  refine (cowDecodeValue_gives m hK b h.encoding).bind fun v hv => .ok ?_
  rw [size_entity]
  dsimp only [partSize]
  rw [size_str v]
  omega

theorem entityBody_gives (i : Bytes) (n : Nat) : Yields (entityBody i n) fun b => b.length = n := by
  unfold entityBody
  split
  · exact (sliceFrom_gives _ _).mono fun b hb => by omega
  · exact .abort

section
variable (H : Converts K c)
include H

theorem cowEntityHeader_light (i : Bytes) :
    Yields (cowEntityHeader c p i) fun a => headerSize a.2 + K * a.1.length ≤ K * i.length := by
  refine matchParsers_gives ?_
  simp only [List.mem_cons, List.not_mem_nil, or_false]
  rintro q (rfl | rfl | rfl | rfl | rfl | rfl)
  · exact mapValue_gives (cowTransferEncoding_light H i) fun v => Nat.zero_le _
  · exact mapValue_gives (cowContentType_light H i) fun v => Nat.le_refl _
  · exact mapValue_gives (cowContentId_light H i) fun v => Nat.le_refl _
  · exact mapValue_gives (cowContentDescription_light H i) fun v => Nat.le_refl _
  · exact mapValue_gives (cowContentDisposition_light H i) fun v => Nat.le_refl _
  · exact mapValue_gives (cowUnknown_light H i) fun v => Nat.le_refl _

theorem cowHeaderPart_gives (l : Literals) (i : Bytes) :
    Yields (cowHeaderPart c p l i) fun a => partSize a.2 + K * a.1 ≤ K * i.length + 23 := by
  unfold cowHeaderPart
  refine (many_gives (g := headerSize) (cowEntityHeader_light H) i).bind ?_
  rintro ⟨r, hs⟩ h
  have h1 := headersSize_addAll hs {}
  have h2 := partSize_withDefaults l (hs.foldl CowEntityHeaders.add {})
  have h0 : headersSize {} = 0 := rfl
  dsimp only at h ⊢
  split
  · refine .ok ?_
    dsimp only
    omega
  · refine (tag_times K _ (by decide)).bind fun a ha => .ok ?_
    dsimp only at *
    omega

theorem cowRawEntity_gives (l : Literals) (i : Bytes) :
    Yields (cowRawEntity c p l i) fun e => size e ≤ K * i.length + 24 := by
  unfold cowRawEntity
  refine (cowHeaderPart_gives H l i).bind fun a ha => (entityBody_gives i a.1).bind fun b hb =>
    (headerEntity_gives p.memory H.three a.2 _).mono fun e he => ?_
  rw [bytesOf_slice, hb] at he
  omega

theorem cowRawEntityOwned_gives (l : Literals) (i : Bytes) :
    Yields (cowRawEntityOwned c p l i) fun e => size e ≤ K * i.length + 24 := by
  unfold cowRawEntityOwned
  refine (cowHeaderPart_gives H l i).bind fun a ha => (entityBody_gives i a.1).bind fun b hb =>
    (headerEntity_gives p.memory H.three _ _).mono fun e he => ?_
  rw [partSize_intoOwned] at he
  dsimp only [bytesOf] at he
  rw [hb] at he
  omega

/-! ### Multipart -/

omit H in
theorem cowBeforeBoundary_gives (boundary i : Bytes) :
    Yields (cowBeforeBoundary p boundary i) fun a => K * (a.2.2.length + 4) + K * a.1.length ≤ K * i.length := by
  unfold cowBeforeBoundary beforeBoundary
  refine Yields.bind (P := fun a : Bytes × Bytes => a.2.length + 4 + a.1.length ≤ i.length) ?_ fun a ha => .ok ?_
  · refine Yields.bind (P := fun a : Nat × Nat => 4 ≤ a.2) ?_ fun a ha => (getUncheckedFrom_gives _ _).bind fun r hr =>
      (getUncheckedTo_gives _ _).bind fun b hb => .ok ?_
    · unfold beforeBoundaryIdx
      dsimp only
      split
      · exact .ok (by dsimp only; omega)
      · split
        · exact .ok (by dsimp only; omega)
        · exact .err
    · dsimp only at *
      omega
  · dsimp only
    rw [← Nat.mul_add]
    exact Nat.mul_le_mul_left K ha

omit H in
theorem cowMultipartParts_gives (boundary i : Bytes) :
    Yields (cowMultipartParts p i boundary) fun l => (l.map fun a => K * (a.2.length + 4)).sum ≤ K * i.length := by
  unfold cowMultipartParts
  refine (many_gives (g := fun a : Nat × Bytes => K * (a.2.length + 4)) (cowBeforeBoundary_gives boundary) i).bind
    fun a ha => ?_
  refine Yields.bind (P := fun b : Bytes × Bytes => K * (b.2.length + 4) ≤ K * a.1.length) ?_ fun b hb => ?_
  · unfold beforeClosingBoundary
    refine Yields.bind (P := fun a : Nat × Nat => 4 ≤ a.2) ?_ fun d hd => (getUncheckedFrom_gives _ _).bind fun r hr =>
      (getUncheckedTo_gives _ _).bind fun b hb => .ok ?_
    · unfold beforeClosingBoundaryIdx
      dsimp only
      split
      · exact .ok (by dsimp only; omega)
      · exact .err
    · refine Nat.mul_le_mul_left K ?_
      dsimp only at *
      omega
  · have hs : ((a.2 ++ [(p.addr a.1, b.2)]).map fun a => K * (a.2.length + 4)).sum ≤ K * i.length := by
      rw [List.map_append, List.sum_append]
      simp only [List.map_cons, List.map_nil, List.sum_cons, List.sum_nil]
      omega
    dsimp only
    split
    · rename_i e
      rw [e, List.map_cons, List.sum_cons] at hs
      exact .ok (by omega)
    · exact .abort

theorem cowRawEntities_gives (l : Literals) : ∀ ps : List (Nat × Bytes),
    Yields (cowRawEntities c p l ps) fun es => size es ≤ (ps.map fun a => (K + 6) * (a.2.length + 4)).sum
  | [] => .ok (Nat.le_refl _)
  | (addr, part) :: ps => by
    unfold cowRawEntities
    refine (cowRawEntity_gives H l part).bind fun e he => (cowRawEntities_gives l ps).bind fun es hs => .ok ?_
    rw [size_cons, List.map_cons, List.sum_cons]
    have : K * part.length + 24 ≤ (K + 6) * (part.length + 4) := by
      rw [Nat.add_mul, Nat.mul_add]
      omega
    dsimp only
    omega

theorem cowParseMultipart_gives (l : Literals) (i : Bytes) (ps : CowParams) :
    Yields (cowParseMultipart c p l i ps) fun es => size es ≤ (K + 6) * i.length := by
  unfold cowParseMultipart
  split
  · exact .err
  · exact (cowMultipartParts_gives (K := K + 6) _ i).bind fun parts hp => (cowRawEntities_gives H l parts).mono fun es he =>
      Nat.le_trans he hp

theorem cowEntityParse_gives (l : Literals) (raw : CowRawEntity) (v : Bytes) :
    Yields (raw.parse c p l v) fun e => size e ≤ size raw.subtype + (K + 6) * v.length + 1 := by
  unfold CowRawEntity.parse
  split
  · refine (cowParseMultipart_gives H l v _).bind fun es he => .ok ?_
    show size (raw.subtype, es) ≤ _
    rw [size_pair]
    omega
  · split
    · split
      · rename_i charset _
        split
        · rename_i text ht
          refine Yields.bind (P := fun t => bytesOf t ≤ K * v.length) ?_ fun t h => .ok ?_
          · unfold cowDecodeText at ht
            split at ht
            · cases ht
            · rename_i text' hd
              cases ht
              refine (H.text hd).bind fun t h => .ok ?_
              split
              · rw [bytesOf_slice]
                exact Nat.le_mul_of_pos_left _ (by have := H.three; omega)
              · exact h
          · show size (raw.subtype, t) ≤ _
            rw [size_pair, size_str t, Nat.add_mul]
            omega
        · exact .ok (Nat.zero_le _)
      · exact .ok (Nat.zero_le _)
    · exact .ok (Nat.zero_le _)

end

/-! ### E-mails -/

/-- The size of what was collected so far. -/
def accSize (a : CowEmailAcc) : Nat :=
  size a.from + size a.sender + size a.subject + size a.to + size a.cc + size a.bcc + size a.messageId + size a.inReplyTo +
    size a.references + size a.replyTo + size a.comments + size a.keywords + size a.trace + size a.contentType +
    size a.contentId + size a.contentDescription + size a.contentDisposition + size a.unknownFields

theorem setOnce_gives {name : String} {old : Option α} {v : α} {set : Option α → CowEmailAcc} {n : Nat}
    (h : old = none → accSize (set (some v)) ≤ n) : Yields (cowSetOnce name old v set) fun a => accSize a ≤ n := by
  unfold cowSetOnce
  split
  · exact .ok (h rfl)
  · exact .err

theorem accAdd_gives (a : CowEmailAcc) (f : CowField) : Yields (a.add f) fun b => accSize b ≤ accSize a + size f := by
  cases f with
  | comments v =>
    refine .ok ?_
    simp only [accSize, size_append, size_cons, size_nil]
    show _ ≤ _ + size v
    omega
  | keywords v =>
    refine .ok ?_
    simp only [accSize, size_append]
    show _ ≤ _ + size v
    omega
  | trace r l f =>
    refine .ok ?_
    simp only [accSize, size_append, size_cons, size_nil]
    show _ ≤ _ + size (r, l, f)
    omega
  | unknown n v =>
    refine .ok ?_
    simp only [accSize, size_append, size_cons, size_nil]
    show _ ≤ _ + size (n, v)
    omega
  | contentType t st ps =>
    unfold CowEmailAcc.add
    refine setOnce_gives fun h => ?_
    simp only [accSize, h, size_some, size_none]
    show _ ≤ _ + size (t, st, ps)
    omega
  | date v =>
    unfold CowEmailAcc.add
    refine setOnce_gives fun h => ?_
    simp only [accSize]
    omega
  | mimeVersion v w =>
    unfold CowEmailAcc.add
    refine setOnce_gives fun h => ?_
    simp only [accSize]
    omega
  | contentTransferEncoding v =>
    unfold CowEmailAcc.add
    refine setOnce_gives fun h => ?_
    simp only [accSize]
    omega
  | _ v =>
    unfold CowEmailAcc.add
    refine setOnce_gives fun h => ?_
    simp only [accSize, h, size_some, size_none]
    show _ ≤ _ + size v
    omega

theorem accAddAll_gives : ∀ (fs : List CowField) (a : CowEmailAcc), Yields (a.addAll fs) fun b => accSize b ≤ accSize a + size fs
  | [], _ => .ok (Nat.le_refl _)
  | f :: fs, a => by
    unfold CowEmailAcc.addAll
    refine (accAdd_gives a f).bind fun b hb => (accAddAll_gives fs b).mono fun d hd => ?_
    rw [size_cons]
    omega

theorem required_gives [HasStrings α β] (feature : Bool) (name : String) (x : Option α) :
    Yields (required feature name x) fun y => size y ≤ size x := by
  unfold required
  split
  · split
    · exact .ok (Nat.le_refl _)
    · exact .err
  · exact .ok (Nat.zero_le _)

theorem cowInferSender_gives (feature : Bool) (sender : Option CowMailbox) (fr : Option (List CowMailbox)) :
    Yields (cowInferSender feature sender fr) fun s => size s ≤ size sender + size fr := by
  unfold cowInferSender
  split
  · split
    · exact .ok (Nat.le_add_right _ _)
    · cases fr with
      | none => exact .err
      | some fr =>
        cases fr with
        | nil => exact .err
        | cons m fr =>
          dsimp only [Option.getD_some]
          split
          · refine .ok ?_
            rw [size_some, size_some, size_cons]
            omega
          · exact .err
  · exact .ok (Nat.zero_le _)

theorem accEntity_gives (hK : 3 ≤ K) (l : Literals) (a : CowEmailAcc) (body : Option CowStr) :
    Yields (a.entity c p l body) fun e =>
      (c.feat.mime = true → size e ≤ size a.contentType + size a.contentDescription + size a.contentId +
        size a.contentDisposition + K * (body.map bytesOf).getD 0 + 24) ∧ (c.feat.mime = false → size e = 0) := by
  unfold CowEmailAcc.entity
  split
  · rename_i hm
    rw [hm]
    have h1 := size_getD_type l a.contentType
    generalize a.contentType.getD l.defaultType = t at *
    obtain ⟨t, st, ps⟩ := t
    rw [size_pair, size_pair] at h1
    refine Yields.bind (P := fun v : Option CowStr => bytesOf (v.getD (emptyString p.empty)) ≤ K * (body.map bytesOf).getD 0) ?_
      fun v hv => .ok ⟨fun _ => ?_, nofun⟩
    · cases body with
      | none => exact .ok (Nat.zero_le _)
      | some b => exact (cowDecodeValue_gives p.memory hK b _).bind fun t ht => .ok ht
    · rw [size_some, size_entity]
      dsimp only
      rw [size_str (v.getD _), size_nil]
      omega
  · exact .ok ⟨fun h => by contradiction, fun _ => rfl⟩

theorem size_email (e : CowEmail) : size e = size e.body + size e.from + size e.sender + size e.subject + size e.to + size e.cc +
    size e.bcc + size e.messageId + size e.inReplyTo + size e.references + size e.replyTo + size e.comments + size e.keywords +
    size e.trace + size e.mimeEntity + size e.unknownFields := by
  have h : strings e = strings e.body ++ strings e.from ++ strings e.sender ++ strings e.subject ++ strings e.to ++
    strings e.cc ++ strings e.bcc ++ strings e.messageId ++ strings e.inReplyTo ++ strings e.references ++ strings e.replyTo ++
    strings e.comments ++ strings e.keywords ++ strings e.trace ++ strings e.mimeEntity ++ strings e.unknownFields := rfl
  simp only [size, h, List.map_append, List.sum_append]

theorem finish_gives (hK : 3 ≤ K) (l : Literals) (a : CowEmailAcc) (body : Option CowStr) :
    Yields (a.finish c p l body) fun e =>
      size e + size a.sender ≤ accSize a + size e.sender + K * (body.map bytesOf).getD 0 + 24 ∧
        size e.sender ≤ size a.sender + size a.from := by
  unfold CowEmailAcc.finish
  refine (required_gives _ _ a.from).bind fun fr hf => Yields.any.bind fun date _ => (cowInferSender_gives _ a.sender fr).bind
    fun s hs => (accEntity_gives (c := c) (p := p) hK l a body).bind fun e he => .ok ?_
  rw [size_email]
  dsimp only [accSize] at *
  cases hm : c.feat.mime with
  | true =>
    have he := he.1 hm
    rw [if_pos rfl, size_none]
    omega
  | false =>
    have he := he.2 hm
    have hb : size body ≤ K * (body.map bytesOf).getD 0 + 1 := by
      cases body with
      | none => exact Nat.zero_le _
      | some b =>
        have := Nat.le_mul_of_pos_left (bytesOf b) (show 0 < K by omega)
        rw [size_some, size_str]
        simp only [Option.map_some, Option.getD_some]
        omega
    rw [if_neg (by decide)]
    omega

variable (H : Converts K c)
include H

theorem cowParseMessage_gives (i : Bytes) :
    Yields (cowParseMessage c p i) fun a => size a.1 + K * (a.2.map bytesOf).getD 0 ≤ K * i.length := by
  unfold cowParseMessage
  refine (cowFields_light H i).bind ?_
  rintro ⟨r, fs⟩ h
  dsimp only at h ⊢
  split
  · split
    · refine .ok ?_
      show size fs + K * 0 ≤ _
      rw [Nat.mul_zero]
      omega
    · refine (tag_times K _ (by decide)).bind fun a ha => .ok ?_
      show size fs + K * a.1.length ≤ _
      omega
  · refine Yields.bind (P := fun b : Option Bytes => K * (b.map List.length).getD 0 ≤ K * r.length) ?_ fun b hb => .ok ?_
    · refine Yields.mono (P := fun b => (b.map List.length).getD 0 ≤ r.length) ?_ fun b hb => Nat.mul_le_mul_left K hb
      unfold body
      split
      · exact .ok (Nat.zero_le _)
      · refine Yields.any.bind fun a _ => Yields.any.bind fun _ _ => (getUncheckedFrom_gives _ _).bind fun v hv => .ok ?_
        show v.length ≤ _
        omega
    · cases b with
      | none =>
        show size fs + K * 0 ≤ _
        rw [Nat.mul_zero]
        omega
      | some b =>
        have hb : K * b.length ≤ K * r.length := hb
        show size fs + K * b.length ≤ _
        omega

theorem cowEmail_gives (l : Literals) (i : Bytes) : Yields (CowEmail.parse c p l i) fun e =>
    size e ≤ K * i.length + size e.sender + 24 ∧ size e.sender ≤ K * i.length := by
  unfold CowEmail.parse
  refine (cowParseMessage_gives H i).bind fun a ha => (accAddAll_gives a.1 {}).bind fun b hb =>
    (finish_gives H.three l b a.2).mono fun e he => ?_
  have h0 : accSize {} = 0 := rfl
  have h1 : size b.sender + size b.from ≤ accSize b := by
    unfold accSize
    omega
  omega

end EmailParser
