import Verif.Proofs.Complete.PrintMime
import Verif.Props.Mime
/-
C46, C53: content types and dispositions are read back as they were written.
-/
namespace EmailParser
open Spec

variable (c : Cfg)

/-! ### C46 -/

/-- Parameters that are neither segments nor encoded: the last one with a name counts. -/
theorem collect_plain (ps : List RawParam) (hp : ∀ p ∈ ps, p.index = none) :
    collectParameters c ps =
      .ok fun name => (lastWith (fun p => p.name == name) ps).map (·.value) := by
  have hseg : ∀ name k, segment ps name k = none := by
    intro name k
    unfold segment lastWith
    rw [List.getLast?_eq_none_iff, List.filter_eq_nil_iff]
    intro p hm h
    rw [hp p hm] at h
    simp at h
  rw [C38_collect_iff c ps _ (fun p hm k hk => by rw [hp p hm] at hk; cases hk)
    (fun _ name => ⟨0, by omega, hseg name 0⟩)]
  intro name
  unfold ParamValue
  rw [hseg]
  dsimp only
  unfold plainParam lastWith
  congr 2
  refine List.filter_congr fun p hm => ?_
  rw [hp p hm]
  simp

/-- Writing any content type with any list of parameters between quotation marks and reading it gives
the type, the subtype in lowercase and the parameters; names may be in any case, and a later parameter
with the same name replaces an earlier one. -/
theorem C46_round_trip (n type subtype r : Bytes) (t : ContentType) (params : List (Bytes × Bytes))
    (hn : n.map asciiLower = b! "content-type:")
    (ht : WrittenName typeNames .unknown type t) (hne : subtype ≠ [])
    (hs : ∀ b ∈ subtype, tokenChar b = true)
    (hp : ∀ p ∈ params, p.1 ≠ [] ∧ (∀ b ∈ p.1, tokenChar b = true ∧ b ≠ 42) ∧ Printable p.2)
    (hr : NotBefore wsp r) :
    contentType c (n ++ printContentType type subtype params ++ CRLF ++ r) =
      .ok (r, t, subtype.map asciiLower, lastValue params) := by
  have h := contentType_append (c := c) (g := b! " ") (ps := params.map plainWritten)
    (q := lastValue params) (r := r) hn optCfws_space ht hne hs
    (by
      intro p hm
      obtain ⟨x, hx, rfl⟩ := List.mem_map.mp hm
      obtain ⟨h1, h2, h3⟩ := hp x hx
      exact ⟨optCfws_nil, optCfws_space, h1, fun b hb => (h2 b hb).1, .inl fun hb => (h2 42 hb).2 rfl, (fun k hk => by cases hk), h3⟩)
    (by
      rw [collect_plain c]
      · congr 1
        funext name
        unfold lastValue lastWith
        rw [List.map_map, List.filter_map, List.getLast?_map, Option.map_map]
        rfl
      · intro p hm
        simp only [List.mem_map] at hm
        obtain ⟨_, ⟨x, -, rfl⟩, rfl⟩ := hm
        rfl) hr
  unfold printContentType
  rw [show (params.flatMap fun p => (plainWritten p).text) =
    (params.map plainWritten).flatMap WrittenParam.text by rw [List.flatMap_map]]
  simpa only [List.append_assoc] using h

/-- In general: any white space and comments, tokens or quotation marks, segments and encoded
segments; the parameters are those the raw parameters denote. -/
theorem C46_any_layout (n g type subtype r : Bytes) (t : ContentType) (ps : List WrittenParam)
    (q : Params) (hn : n.map asciiLower = b! "content-type:") (hg : Gap c g ())
    (ht : WrittenName typeNames .unknown type t) (hne : subtype ≠ [])
    (hs : ∀ b ∈ subtype, tokenChar b = true) (hp : ∀ p ∈ ps, p.Valid c)
    (hno : c.overflowChecks = true → ∀ name, ∃ k, k < 256 ∧ segment (ps.map WrittenParam.raw) name k = none)
    (hq : ∀ name, ParamValue c (ps.map WrittenParam.raw) name (q name)) (hr : NotBefore wsp r) :
    contentType c (n ++ (g ++ type ++ b! "/" ++ subtype ++ ps.flatMap WrittenParam.text) ++ CRLF ++ r) =
      .ok (r, t, subtype.map asciiLower, q) := by
  have h := contentType_append (c := c) hn hg ht hne hs hp (q := q)
    ((C38_collect_iff c _ q (fun p hm k hk => by
      obtain ⟨x, hx, rfl⟩ := List.mem_map.mp hm
      exact (hp x hx).index k hk) hno).mpr hq) hr
  simpa only [List.append_assoc] using h

theorem writtenSegments_raw (keep : UInt8 → Bool) (name p : Bytes) (pieces : List Bytes) :
    (writtenSegments keep name (p :: pieces) 0).map WrittenParam.raw =
      segmentParams (name.map asciiLower)
        ((true, b! "utf-8''" ++ pctEncode keep p) :: pieces.map fun x => (true, pctEncode keep x)) 0 := by
  unfold writtenSegments segmentParams
  have key : ∀ (l : List Bytes) (k : Nat), 0 < k →
      ((l.zipIdx k).map fun x => (WrittenParam.raw
        { before := [], after := b! " ", name, index := some x.2, encoded := true, quoted := false,
          value := (if x.2 = 0 then b! "utf-8''" else []) ++ pctEncode keep x.1 })) =
      (((l.map fun x => (true, pctEncode keep x)).zipIdx k).map fun s =>
        (⟨name.map asciiLower, some s.2, s.1.1, s.1.2⟩ : RawParam)) := by
    intro l
    induction l with
    | nil => simp
    | cons x l ih =>
      intro k hk
      simp only [List.zipIdx_cons, List.map_cons, ih (k + 1) (by omega)]
      rw [if_neg (by omega)]
      rfl
  simp only [List.zipIdx_cons, List.map_cons, List.map_map, Function.comp_def, Nat.zero_add]
  rw [key pieces 1 (by omega)]
  rfl

theorem pctEncode_token {keep : UInt8 → Bool} (hk : ∀ b, keep b = true → tokenChar b = true ∧ b ≠ 37)
    (x : Bytes) : ∀ b ∈ pctEncode keep x, tokenChar b = true := by
  intro b hb
  unfold pctEncode at hb
  obtain ⟨y, -, hy⟩ := List.mem_flatMap.mp hb
  split at hy
  · rw [List.mem_singleton.mp hy]
    exact (hk y ‹_›).1
  · have key : ∀ y : UInt8, tokenChar (hexDigit (y.toNat / 16)) = true ∧
        tokenChar (hexDigit (y.toNat % 16)) = true := by decide +kernel
    simp only [List.mem_cons, List.not_mem_nil, or_false] at hy
    rcases hy with rfl | rfl | rfl
    · decide
    · exact (key y).1
    · exact (key y).2

theorem pctEncode_ne {keep : UInt8 → Bool} {x : Bytes} (hx : x ≠ []) : pctEncode keep x ≠ [] := by
  cases x with
  | nil => exact absurd rfl hx
  | cons b x =>
    rw [pctEncode_cons]
    split <;> simp

/-- Any text can be sent as a parameter, cut into any pieces, the segments in any order: it is put
together again. -/
theorem C46_long_text (n type subtype r name p : Bytes) (t : ContentType) (pieces : List Bytes)
    (keep : UInt8 → Bool) (ps : List WrittenParam)
    (hn : n.map asciiLower = b! "content-type:") (ht : WrittenName typeNames .unknown type t)
    (hne : subtype ≠ []) (hs : ∀ b ∈ subtype, tokenChar b = true)
    (hname : name ≠ [] ∧ ∀ b ∈ name, tokenChar b = true ∧ b ≠ 42)
    (hk : ∀ b, keep b = true → tokenChar b = true ∧ b ≠ 37)
    (hu : ∀ x ∈ p :: pieces, utf8Valid x = true) (hx : ∀ x ∈ pieces, x ≠ [])
    (hlen : pieces.length < 255) (hps : ps.Perm (writtenSegments keep name (p :: pieces) 0))
    (hr : NotBefore wsp r) :
    ∃ q, contentType c (n ++ (b! " " ++ type ++ b! "/" ++ subtype ++ ps.flatMap WrittenParam.text) ++
        CRLF ++ r) = .ok (r, t, subtype.map asciiLower, q) ∧
      q (name.map asciiLower) = some (p ++ pieces.flatten) ∧
      ∀ m, m ≠ name.map asciiLower → q m = none := by
  have hk37 : keep 37 = false := by
    cases h : keep 37 with
    | false => rfl
    | true => exact absurd rfl (hk 37 h).2
  have hperm := hps.map WrittenParam.raw
  rw [writtenSegments_raw] at hperm
  have hseg : ∀ x, utf8Valid x = true → SegmentText c (b! "utf-8") (pctEncode keep x) x := fun x hx =>
    (decodeParameter_iff).mp (C37_percent_round_trip c keep hk37 x hx)
  obtain ⟨q, h1, h2, h3⟩ := C38_any_order c (name.map asciiLower) (true, b! "utf-8''" ++ pctEncode keep p)
    (pieces.map fun x => (true, pctEncode keep x)) _ hperm (by simpa using hlen)
    (some (b! "utf-8")) p pieces
    (.inr ⟨rfl, b! "utf-8", [], pctEncode keep p, by simp, by decide, by simp, by decide +kernel,
      hseg p (hu p (by simp))⟩)
    (by simp) (by
      intro k h h'
      simp only [FurtherText, List.getElem_map]
      exact hseg _ (hu _ (List.mem_cons_of_mem _ (List.getElem_mem h))))
  refine ⟨q, ?_, h2, h3⟩
  have h := contentType_append (c := c) (g := b! " ") hn optCfws_space ht hne hs (ps := ps) (by
    intro x hm
    have hm := hps.mem_iff.mp hm
    unfold writtenSegments at hm
    obtain ⟨⟨y, k⟩, hy, rfl⟩ := List.mem_map.mp hm
    have hlt := List.snd_lt_of_mem_zipIdx hy
    have hyk := List.fst_mem_of_mem_zipIdx hy
    refine ⟨optCfws_nil, optCfws_space, hname.1, fun b hb => (hname.2 b hb).1, .inl fun hb => (hname.2 42 hb).2 rfl, ?_, ?_, ?_⟩
    · intro j hj
      simp only [Option.some.injEq] at hj
      simp at hlt
      omega
    · show (if k = 0 then b! "utf-8''" else []) ++ pctEncode keep y ≠ []
      by_cases h0 : k = 0
      · simp [h0]
      · rw [if_neg h0]
        refine pctEncode_ne (hx y ?_)
        rw [List.zipIdx_cons] at hy
        rcases List.mem_cons.mp hy with hy | hy
        · cases hy
          exact absurd rfl h0
        · exact List.fst_mem_of_mem_zipIdx hy
    · intro b hb
      rcases List.mem_append.mp hb with hb | hb
      · have key : ∀ b ∈ (b! "utf-8''"), tokenChar b = true := by decide +kernel
        by_cases h0 : k = 0
        · rw [if_pos h0] at hb
          exact key b hb
        · rw [if_neg h0] at hb
          cases hb
      · exact pctEncode_token hk y b hb) h1 hr
  simpa only [List.append_assoc] using h

/-- A type with capitals, a known subtype in capitals, and parameters that need quotation. -/
example : printContentType (b! "TEXT") (b! "Plain")
    [(b! "Charset", b! "utf-8"), (b! "name", b! "a \"b\"; c")] =
      b! " TEXT/Plain; Charset=\"utf-8\"; name=\"a \\\"b\\\"; c\"" := by decide +kernel

example : ((outcomeValue (contentType (Cfg.concrete .full)
      (b! "Content-type:" ++ printContentType (b! "TEXT") (b! "Plain")
        [(b! "Charset", b! "utf-8"), (b! "name", b! "x"), (b! "NAME", b! "a \"b\"; c")] ++ b! "\r\nX"))).map
    fun r => (r.2.1 == .text, [some r.1, some r.2.2.1, r.2.2.2 (b! "charset"), r.2.2.2 (b! "name")])) =
    some (true, [some (b! "X"), some (b! "plain"), some (b! "utf-8"), some (b! "a \"b\"; c")]) := by
  decide +kernel

/-- The condition on the name of the type: `text` is the beginning of `textual`. -/
example : outcomeError (contentType (Cfg.concrete .full) (b! "Content-Type: textual/plain\r\n")) ≠ none ∧
    outcomeValue (mimeType (b! "font/x")) = some (b! "/x", .unknown (b! "font")) := by decide +kernel

/-- Three segments, written in another order. -/
example : ((writtenSegments (fun b => 97 ≤ b && b ≤ 122) (b! "Name") [b! "aé", b! "%4", b! "1 "] 0).reverse.flatMap
      WrittenParam.text) = b! "; Name*2*=%31%20; Name*1*=%25%34; Name*0*=utf-8''a%C3%A9" ∧
    ((outcomeValue (contentType (Cfg.concrete .full)
      (b! "Content-Type: a/b; Name*2*=%31%20; Name*1*=%25%34; Name*0*=utf-8''a%C3%A9\r\n"))).map
    fun r => r.2.2.2 (b! "name")) = some (some (b! "aé%41 ")) := by decide +kernel

/-! ### C53 -/

/-- Any layout of a disposition: white space and comments, parameters in any order, names in any
case, tokens or quotation marks, segments. -/
theorem C53_any_layout (n g type r : Bytes) (t : DispositionType) (xs : List WrittenItem) (q : Params)
    (hn : n.map asciiLower = b! "content-disposition:") (hg : Gap c g ())
    (ht : WrittenName dispositionNames .unknown type t) (hx : ∀ x ∈ xs, x.Valid c)
    (hno : c.overflowChecks = true → ∀ name, ∃ k, k < 256 ∧ segment (otherParams xs) name k = none)
    (hq : ∀ name, ParamValue c (otherParams xs) name (q name)) (hr : NotBefore wsp r) :
    contentDisposition c (n ++ (g ++ type ++ xs.flatMap WrittenItem.text) ++ CRLF ++ r) =
      .ok (r, dispositionOf t (xs.map WrittenItem.item) q) := by
  have h := contentDisposition_append (c := c) hn hg ht hx (q := q)
    ((C38_collect_iff c _ q (fun p hm k hk => by
      unfold otherParams at hm
      obtain ⟨x, hx', he⟩ := List.mem_filterMap.mp hm
      cases x with
      | filename => cases he
      | date => cases he
      | other p =>
        cases he
        have h : (WrittenItem.other p).Valid c := hx _ hx'
        exact h.1.index k hk) hno).mpr hq) hr
  simpa only [List.append_assoc] using h

theorem otherParams_written (filename : Option Bytes) (creation modification read : Option DateTime)
    (params : List (Bytes × Bytes)) :
    otherParams (writtenDisposition filename creation modification read params) =
      params.map fun p => (plainWritten p).raw := by
  unfold otherParams writtenDisposition
  cases filename <;> cases creation <;> cases modification <;> cases read <;>
    simp [List.filterMap_map, Function.comp_def]

theorem collect_lastValue (params : List (Bytes × Bytes)) :
    collectParameters c (params.map fun p => (plainWritten p).raw) = .ok (lastValue params) := by
  rw [collect_plain c]
  · congr 1
    funext name
    unfold lastValue lastWith
    rw [List.filter_map, List.getLast?_map, Option.map_map]
    rfl
  · intro p hm
    simp only [List.mem_map] at hm
    obtain ⟨x, -, rfl⟩ := hm
    rfl

theorem writtenDisposition_valid (filename : Option Bytes) (creation modification read : Option DateTime)
    (params : List (Bytes × Bytes)) (hf : ∀ x ∈ filename, Printable x) (hc : ∀ d ∈ creation, InRange d)
    (hm : ∀ d ∈ modification, InRange d) (hrd : ∀ d ∈ read, InRange d)
    (hp : ∀ p ∈ params, p.1 ≠ [] ∧ (∀ b ∈ p.1, tokenChar b = true ∧ b ≠ 42) ∧ Printable p.2 ∧
      p.1.map asciiLower ∉ [b! "filename", b! "creation-date", b! "modification-date", b! "read-date"]) :
    ∀ x ∈ writtenDisposition filename creation modification read params, x.Valid c := by
  intro x hx
  unfold writtenDisposition at hx
  simp only [List.mem_append, Option.mem_toList, Option.map_eq_some_iff, List.mem_map] at hx
  rcases hx with ((((⟨y, hy, rfl⟩ | ⟨y, hy, rfl⟩) | ⟨y, hy, rfl⟩) | ⟨y, hy, rfl⟩) | ⟨y, hy, rfl⟩)
  · exact ⟨optCfws_nil, optCfws_space, by decide +kernel, hf y hy⟩
  · exact ⟨optCfws_nil, optCfws_space, by decide +kernel, hc y hy, .inl rfl⟩
  · exact ⟨optCfws_nil, optCfws_space, by decide +kernel, hm y hy, .inl rfl⟩
  · exact ⟨optCfws_nil, optCfws_space, by decide +kernel, hrd y hy, .inl rfl⟩
  · obtain ⟨h1, h2, h3, h4⟩ := hp y hy
    simp only [List.mem_cons, List.not_mem_nil, or_false, not_or] at h4
    refine ⟨⟨optCfws_nil, optCfws_space, h1, fun b hb => (h2 b hb).1, .inl fun hb => (h2 42 hb).2 rfl, (fun k hk => by cases hk), h3⟩, fun _ _ =>
      ⟨h4.1, ?_⟩⟩
    rintro ⟨⟩
    · exact h4.2.1
    · exact h4.2.2.1
    · exact h4.2.2.2

theorem dispositionOf_written (t : DispositionType) (filename : Option Bytes)
    (creation modification read : Option DateTime) (params : List (Bytes × Bytes)) (q : Params) :
    dispositionOf t ((writtenDisposition filename creation modification read params).map WrittenItem.item) q =
      { dispositionType := t, filename, creationDate := creation, modificationDate := modification,
        readDate := read, unstructured := q } := by
  have e : ∀ {α : Type} (f : DispositionItem → Option α), (∀ p, f (.parameter p) = none) →
      params.filterMap ((f ∘ WrittenItem.item) ∘ fun p => WrittenItem.other (plainWritten p)) = [] := by
    intro α f hf
    rw [List.filterMap_eq_nil_iff]
    intro x _
    exact hf _
  unfold dispositionOf writtenDisposition
  simp only [List.filterMap_map, List.filterMap_append]
  rw [e itemFilename (fun _ => rfl), e itemCreation (fun _ => rfl), e itemModification (fun _ => rfl),
    e itemRead (fun _ => rfl)]
  cases filename <;> cases creation <;> cases modification <;> cases read <;> rfl

/-- Writing a disposition with optional file name, optional dates and any other parameters and reading
it gives it back. -/
theorem C53_round_trip (n type r : Bytes) (t : DispositionType) (filename : Option Bytes)
    (creation modification read : Option DateTime) (params : List (Bytes × Bytes))
    (hn : n.map asciiLower = b! "content-disposition:")
    (ht : WrittenName dispositionNames .unknown type t)
    (hf : ∀ x ∈ filename, Printable x) (hc : ∀ d ∈ creation, InRange d)
    (hm : ∀ d ∈ modification, InRange d) (hrd : ∀ d ∈ read, InRange d)
    (hp : ∀ p ∈ params, p.1 ≠ [] ∧ (∀ b ∈ p.1, tokenChar b = true ∧ b ≠ 42) ∧ Printable p.2 ∧
      p.1.map asciiLower ∉ [b! "filename", b! "creation-date", b! "modification-date", b! "read-date"])
    (hr : NotBefore wsp r) :
    contentDisposition c
        (n ++ printDisposition type filename creation modification read params ++ CRLF ++ r) =
      .ok (r, { dispositionType := t, filename, creationDate := creation,
                modificationDate := modification, readDate := read,
                unstructured := lastValue params }) := by
  have h := contentDisposition_append (c := c) (g := b! " ") (q := lastValue params) (r := r)
    (xs := writtenDisposition filename creation modification read params) hn optCfws_space ht
    (writtenDisposition_valid c filename creation modification read params hf hc hm hrd hp)
    (by rw [otherParams_written]; exact collect_lastValue c params) hr
  rw [dispositionOf_written] at h
  unfold printDisposition
  simpa only [List.append_assoc] using h

example : (outcomeValue (contentDisposition (Cfg.concrete .full)
      (b! "Content-Disposition: attachment (a)\r\n ; FileName=\"a b.txt\" ;read-DATE=\"Mon, 01 Jan 2024 10:20:30 +0100\"; x*1=b; x*0=a\r\nX"))).map
    (fun r => [some r.1, r.2.filename, r.2.unstructured (b! "x"),
      r.2.readDate.map fun d => printDate true d, r.2.creationDate.map fun d => printDate true d]) =
    some [some (b! "X"), some (b! "a b.txt"), some (b! "ab"), some (b! "Mon, 01 Jan 2024 10:20:30 +0100"),
      none] := by
  decide +kernel

example : printDisposition (b! "inline") (some (b! "a\\b")) none
    (some ⟨some .monday, ⟨1, .january, 2024⟩, ⟨⟨10, 20, 30⟩, ⟨true, 1, 0⟩⟩⟩) none [(b! "size", b! "12")] =
    b! " inline; filename=\"a\\\\b\"; modification-date=\"Mon, 01 Jan 2024 10:20:30 +0100\"; size=\"12\"" := by
  decide +kernel

end EmailParser
