import Verif.Spec.Part
import Verif.Proofs.Complete.PrintMessage
import Verif.Props.PrintMessage
import Verif.Props.Entity
/-
Parts of multipart messages in any layout are read back.
-/
namespace EmailParser
open Spec

variable {c : Cfg}

/-- The headers of parts that have a meaning, with their parsers. -/
def partTable (c : Cfg) : List (Bytes × (Bytes → Res EntityHeader)) :=
  [ (b! "content-transfer-encoding", mapValue .encoding (contentTransferEncoding c)),
    (b! "content-type", mapValue .type (contentType c)),
    (b! "content-id", mapValue .id (contentId c)),
    (b! "content-description", mapValue .description (contentDescription c)),
    (b! "content-disposition", mapValue .disposition (contentDisposition c)) ]

theorem entityHeader_table (i : Bytes) : entityHeader c i = matchParsers i ((partTable c).map (·.2) ++
    [mapValue (fun (name, value) => .other name value) (unknown c)]) := rfl

theorem partTable_nodup : ((partTable c).map (·.1)).Nodup := by
  show [b! "content-transfer-encoding", b! "content-type", b! "content-id", b! "content-description",
    b! "content-disposition"].Nodup
  decide

theorem partTable_other {i : Bytes} : ∀ e ∈ partTable c,
    ¬ (e.1 ++ b! ":") <+: i.map asciiLower → ∃ x, e.2 i = .err x := by
  intro e he
  simp only [partTable, List.mem_cons, List.not_mem_nil, or_false] at he
  rcases he with rfl | rfl | rfl | rfl | rfl <;> intro h <;> exact mapValue_err (headerLine_other rfl h)

theorem partTable_names : ∀ e ∈ partTable c, e.1 ∈ partNames ∧ 58 ∉ e.1 := by
  intro e he
  simp only [partTable, List.mem_cons, List.not_mem_nil, or_false] at he
  rcases he with rfl | rfl | rfl | rfl | rfl <;> (dsimp only; decide)

theorem part_entry {α : Type} {name n w r : Bytes} {q : Bytes → Res α} {K : α → EntityHeader} {v : α}
    (hm : (name, mapValue K q) ∈ partTable c) (hn : n.map asciiLower = name)
    (hq : ∀ n' : Bytes, n'.map asciiLower = name ++ b! ":" → q (n' ++ (w ++ (CRLF ++ r))) = .ok (r, v)) :
    entityHeader c (n ++ b! ":" ++ w ++ CRLF ++ r) = .ok (r, K v) := by
  have h := hq (n ++ b! ":") (by rw [List.map_append, hn]; rfl)
  rw [List.append_assoc, List.append_assoc, entityHeader_table]
  refine matchParsers_entry partTable_nodup hm (fun e he hne => ?_) (by unfold mapValue; rw [h, ok_bind])
  refine partTable_other e he fun hp => hne ?_
  rw [List.map_append, List.map_append, hn] at hp
  exact prefix_name (s := (w ++ (CRLF ++ r)).map asciiLower) (partTable_names _ hm).2 (partTable_names e he).2 hp

/-- A line that is laid out as a header of a part is read as that header. -/
theorem partHeaderL_line {l r : Bytes} {h : EntityHeader} (hl : PartHeaderL c l h) (hr : Stops Spec.wsp r) :
    entityHeader c (l ++ r) = .ok (r, h) := by
  cases hl with
  | @known name n w h ho hn hv =>
    cases h with
    | other => cases ho
    | encoding v =>
      cases ho
      exact part_entry (K := .encoding) (q := contentTransferEncoding c) (by simp [partTable]) hn
        fun n' hn' => encoding_value hv hn'
    | type v =>
      cases ho
      exact part_entry (K := .type) (q := contentType c) (by simp [partTable]) hn
        fun n' hn' => contentType_value hv hn' hr
    | id v =>
      cases ho
      exact part_entry (K := .id) (q := contentId c) (by simp [partTable]) hn
        fun n' hn' => headerLine_append rfl hn' (messageId_value hv hr)
    | description v =>
      cases ho
      exact part_entry (K := .description) (q := contentDescription c) (by simp [partTable]) hn
        fun n' hn' => headerLine_append rfl hn' (text_value hv hr)
    | disposition v =>
      cases ho
      exact part_entry (K := .disposition) (q := contentDisposition c) (by simp [partTable]) hn
        fun n' hn' => contentDisposition_value hv hn' hr
  | @other n w v hne hn hf ht =>
    have h := unknown_text hne hn ht hr
    rw [entityHeader_table, matchParsers_append]
    have : ∃ e, matchParsers (n ++ b! ":" ++ w ++ CRLF ++ r) ((partTable c).map (·.2)) = .err e := by
      refine matchParsers_all_err fun p hp => ?_
      obtain ⟨e, he, rfl⟩ := List.mem_map.mp hp
      refine partTable_other e he fun hpre => hf ?_
      rw [List.append_assoc, List.append_assoc, List.append_assoc, List.map_append, List.map_append,
        ← List.append_assoc] at hpre
      rw [← prefix_name (ftext_colon_lower hn) (partTable_names e he).2 hpre]
      exact (partTable_names e he).1
    obtain ⟨e, he⟩ := this
    simp only [he, matchParsers, mapValue, h, ok_bind]

theorem entityHeader_empty : ∃ e, entityHeader c [] = .err e := by
  rw [entityHeader_table, matchParsers_append]
  have : ∃ e, matchParsers [] ((partTable c).map (·.2)) = .err e := by
    refine matchParsers_all_err fun p hp => ?_
    obtain ⟨e, he, rfl⟩ := List.mem_map.mp hp
    exact partTable_other e he (by simp)
  obtain ⟨e, he⟩ := this
  obtain ⟨e', he'⟩ := takeWhile1_err (p := Spec.ftext) (r := []) stops_nil
  simp only [he, matchParsers, mapValue, unknown, isFtext_eq, he', err_bind]
  exact ⟨_, rfl⟩

theorem partHeaderL_start {l : Bytes} {h : EntityHeader} (hl : PartHeaderL c l h) :
    ∃ b t, l = b :: t ∧ Spec.wsp b = false := by
  have key : ∀ {n w : Bytes}, n ≠ [] → (∀ b ∈ n, ftext b = true) → ∃ b t, n ++ b! ":" ++ w ++ CRLF = b :: t ∧
      Spec.wsp b = false := by
    intro n w hne hf
    cases n with
    | nil => exact absurd rfl hne
    | cons b n =>
      exact ⟨b, _, rfl, (by decide +kernel : ∀ b, ftext b = true → Spec.wsp b = false) b (hf b (by simp))⟩
  cases hl with
  | @known name n w h ho hn hv =>
    have h1 : name ≠ [] ∧ ∀ b ∈ name, ftext b = true := by
      cases h <;> cases ho <;> decide +kernel
    refine key ?_ fun b hb => ?_
    · rintro rfl
      exact h1.1 hn.symm
    · rw [(by decide +kernel : ∀ b : UInt8, ftext b = ftext (asciiLower b))]
      exact h1.2 _ (hn ▸ List.mem_map_of_mem hb)
  | other hne hn => exact key hne hn

theorem partLines_stops {s t : Bytes} {hs : List EntityHeader} (h : LinesL (PartHeaderL c) s hs)
    (ht : Stops Spec.wsp t) : Stops Spec.wsp (s ++ t) := by
  cases h with
  | nil => exact ht
  | cons h _ =>
    obtain ⟨b, l, rfl, hb⟩ := partHeaderL_start h
    exact stops_cons.mpr hb

/-- The headers of a part. -/
theorem partLines_many {s t : Bytes} {hs : List EntityHeader} (h : LinesL (PartHeaderL c) s hs)
    (ht : Stops Spec.wsp t) (he : ∃ e, entityHeader c t = .err e) :
    many (s ++ t) (entityHeader c) = .ok (t, hs) := by
  induction h with
  | nil => exact many_err he
  | @cons l h s hs hl hs' ih =>
    rw [List.append_assoc]
    refine many_cons (partHeaderL_line hl (partLines_stops hs' ht)) ?_ ih
    obtain ⟨b, l, rfl, -⟩ := partHeaderL_start hl
    simp only [List.length_append, List.length_cons]
    omega

theorem entityOf_partValue (hs : List EntityHeader) (v : Bytes) :
    entityOf (hs.foldl EntityHeaders.add {}) v = partValue hs v := by
  rw [entityHeaders_foldl]
  simp only [Option.or_none, List.nil_append]
  unfold entityOf partValue
  have : defaultType = plainText := by
    unfold defaultType plainText Params.insert Params.empty
    rfl
  rw [this]
  rfl

theorem encoding_foldl (hs : List EntityHeader) : (hs.foldl EntityHeaders.add {}).encoding = partEncoding hs := by
  rw [entityHeaders_foldl]
  simp only [Option.or_none]
  rfl

/-- A part in any layout. -/
theorem partL_rawEntity {i body : Bytes} {hs : List EntityHeader} (h : PartL c i hs body) :
    rawEntity c i = (decodeValue body ((partEncoding hs).getD .sevenBit)).bind fun v => .ok (partValue hs v) := by
  obtain ⟨lines, tail, rfl, hl, ht⟩ := h
  simp only [← entityOf_partValue, ← encoding_foldl]
  cases ht with
  | none =>
    have := partLines_many hl stops_nil entityHeader_empty
    refine rawEntity_eq ?_ List.nil_suffix
    unfold headerPart
    rw [this]
    rfl
  | body => exact rawEntity_of_headers c (partLines_many hl (stops_cons.mpr (by decide)) (entityHeader_end c _))

end EmailParser
