import Verif.Proofs.MimeProps
import Verif.Proofs.Complete.Mime
import Verif.Proofs.Order
import Verif.Props.Email
/-
C37, C38, C39, C48: parameters of MIME headers, and the MIME version.
-/
namespace EmailParser
open Spec

variable (c : Cfg)

/-! ### C37 -/

/-- A segment whose escapes are well formed is decoded as usual: percent-decoding from left to right,
then the charset. -/
theorem C37_percent_decoding (bytes charset text : Bytes) (hk : KnownCharset charset)
    (hw : pctWellFormed bytes) :
    decodeParameter c bytes charset = .ok text ↔ CharsetText c charset (pctDecode bytes) text := by
  rw [decodeParameter_iff, ← pctDecodeRight_eq bytes hw]
  unfold SegmentText
  simp [hk]

theorem pctEncode_cons (keep : UInt8 → Bool) (b : UInt8) (s : Bytes) : pctEncode keep (b :: s) =
    (if keep b then [b] else [37, hexDigit (b.toNat / 16), hexDigit (b.toNat % 16)]) ++
      pctEncode keep s := by simp [pctEncode]

theorem hexValue_hexDigit : ∀ b : UInt8, ∃ x y, hexValue (hexDigit (b.toNat / 16)) = some x ∧
    hexValue (hexDigit (b.toNat % 16)) = some y ∧ x * 16 + y = b := by
  intro b
  have h : ∀ b : UInt8, hexValue (hexDigit (b.toNat / 16)) = some (b / 16) ∧
    hexValue (hexDigit (b.toNat % 16)) = some (b % 16) ∧ b / 16 * 16 + b % 16 = b := by
    decide +kernel
  exact ⟨_, _, h b⟩

theorem pctEncode_decode (keep : UInt8 → Bool) (hk : keep 37 = false) : ∀ s : Bytes,
    pctWellFormed (pctEncode keep s) ∧ pctDecode (pctEncode keep s) = s
  | [] => ⟨trivial, rfl⟩
  | b :: s => by
    obtain ⟨h1, h2⟩ := pctEncode_decode keep hk s
    rw [pctEncode_cons]
    cases hb : keep b with
    | true =>
      have hb37 : b ≠ 37 := fun h => by rw [h, hk] at hb; cases hb
      have hn : ∀ a' b' bs', b = 37 → pctEncode keep s = a' :: b' :: bs' → False :=
        fun _ _ _ h _ => hb37 h
      simp only [if_true, List.cons_append, List.nil_append]
      rw [pctWellFormed.eq_2 b _ hn, pctDecode.eq_2 b _ hn, h2]
      exact ⟨⟨hb37, h1⟩, rfl⟩
    | false =>
      obtain ⟨x, y, hx, hy, e⟩ := hexValue_hexDigit b
      simp [pctWellFormed, pctDecode, hx, hy, e, h1, h2]

/-- Encoding any text with escapes (at least for `%`) and decoding gives the text back. -/
theorem C37_percent_round_trip (keep : UInt8 → Bool) (hk : keep 37 = false) (text : Bytes)
    (ht : utf8Valid text = true) :
    decodeParameter c (pctEncode keep text) (b! "utf-8") = .ok text := by
  obtain ⟨h1, h2⟩ := pctEncode_decode keep hk text
  rw [C37_percent_decoding c _ _ _ (.inl rfl) h1, h2]
  exact .inl ⟨.inl rfl, ht, rfl⟩

/-- What is not UTF-8 is rejected. -/
theorem C37_percent_invalid (keep : UInt8 → Bool) (hk : keep 37 = false) (bytes : Bytes)
    (hb : utf8Valid bytes = false) :
    ∃ e, decodeParameter c (pctEncode keep bytes) (b! "utf-8") = .err e := by
  obtain ⟨h1, h2⟩ := pctEncode_decode keep hk bytes
  have h := C37_percent_decoding c (pctEncode keep bytes) (b! "utf-8")
  cases hx : decodeParameter c (pctEncode keep bytes) (b! "utf-8") with
  | err e => exact ⟨e, rfl⟩
  | abort k => exact (decodeParameter_no_abort hx).elim
  | ok t =>
    have := (h t (.inl rfl) h1).mp hx
    rw [h2] at this
    rcases this with ⟨-, h, -⟩ | ⟨t, h, -⟩
    · rw [hb] at h; cases h
    · cases t <;> simp [charsetName] at h

/-- In general the code decodes from right to left. -/
theorem C37_right_to_left (bytes charset text : Bytes) (hk : KnownCharset charset) :
    decodeParameter c bytes charset = .ok text ↔
      CharsetText c charset (pctDecodeRight bytes) text := by
  rw [decodeParameter_iff]
  unfold SegmentText
  simp [hk]

/-- That is not what percent-decoding is: a decoded byte can take part in another escape. -/
theorem C37_decodes_twice : decodeParameter c (b! "%4%31") (b! "utf-8") = .ok (b! "A") ∧
    pctDecode (b! "%4%31") = b! "%41" := by
  refine ⟨?_, by decide +kernel⟩
  rw [C37_right_to_left c _ _ _ (.inl rfl)]
  exact .inl ⟨.inl rfl, by decide +kernel, by decide +kernel⟩

example : pctEncode (fun b => 97 ≤ b && b ≤ 122) (b! "é%41") = b! "%C3%A9%25%34%31" ∧
    pctDecode (b! "%C3%A9%25%34%31%2") = b! "é%41%2" := by decide +kernel

example : outcomeValue (decodeParameter (Cfg.concrete .full) (b! "%c3%A9t%C3%a9") (b! "us-ascii")) =
    some (b! "été") := by decide +kernel

/-! ### C38 -/

/-- The parameters collected from a header are exactly those denoted by its raw parameters
(`Spec.ParamValue`), unless the counter of segments overflows. -/
theorem C38_collect_iff (ps : List RawParam) (q : Params)
    (hs : ∀ p ∈ ps, ∀ k, p.index = some k → k < 256)
    (hno : c.overflowChecks = true → ∀ name, ∃ k, k < 256 ∧ segment ps name k = none) :
    collectParameters c ps = .ok q ↔ ∀ name, ParamValue c ps name (q name) := by
  obtain ⟨h1, h2, h3⟩ := collectParameters_spec (c := c) hs
  refine ⟨h1 q, fun h => ?_⟩
  cases hx : collectParameters c ps with
  | ok q' =>
    congr 1
    funext name
    exact paramValue_unique (h1 q' hx name) (h name)
  | err e =>
    obtain ⟨name, hn⟩ := h2 e hx
    exact (hn _ (h name)).elim
  | abort k =>
    obtain ⟨-, ho, name, ha⟩ := h3 k hx
    obtain ⟨k, hk, hn⟩ := hno ho name
    have := ha k hk
    rw [hn] at this
    cases this

/-- Without segment 0 and without a parameter that has no index, nothing is reported. -/
theorem C38_without_first (ps : List RawParam) (q : Params) (name : Bytes)
    (hs : ∀ p ∈ ps, ∀ k, p.index = some k → k < 256)
    (h0 : ∀ p ∈ ps, p.name = name → p.index ≠ none ∧ p.index ≠ some 0)
    (h : collectParameters c ps = .ok q) : q name = none := by
  have := (collectParameters_spec hs).1 q h name
  have e : ∀ i : Option Nat, (i = none ∨ i = some 0) →
      ps.filter (fun p => p.name == name && p.index == i) = [] := by
    intro i hi
    rw [List.filter_eq_nil_iff]
    intro p hp hpi
    simp only [Bool.and_eq_true, beq_iff_eq] at hpi
    have := h0 p hp hpi.1
    rcases hi with rfl | rfl
    · exact this.1 hpi.2
    · exact this.2 hpi.2
  unfold ParamValue segment plainParam lastWith at this
  rw [e _ (.inr rfl), e _ (.inl rfl)] at this
  exact this

/-- Everything from the first missing segment on is ignored. -/
theorem C38_stops_at_gap (ps : List RawParam) (q : Params) (name : Bytes) (values : List Bytes)
    (hs : ∀ p ∈ ps, ∀ k, p.index = some k → k < 256) (hne : values ≠ [])
    (hv : ∀ k (h : k < values.length), segment ps name k = some ⟨name, some k, false, values[k]⟩)
    (hgap : segment ps name values.length = none) (h : collectParameters c ps = .ok q) :
    q name = some values.flatten := by
  refine paramValue_unique ((collectParameters_spec hs).1 q h name) ?_
  cases values with
  | nil => exact absurd rfl hne
  | cons v values =>
    unfold ParamValue
    rw [hv 0 (by simp)]
    refine ⟨none, v, .inl ⟨rfl, rfl, rfl⟩, values, ?_, hgap, by simp⟩
    intro k hk
    exact ⟨_, hv (k + 1) (by simpa using hk), rfl⟩

/-- The raw parameters `name*k`, `name*(k+1)`, …, each with the mark of encoded segments and the
text after `=`. -/
def segmentParams (name : Bytes) (segments : List (Bool × Bytes)) (k : Nat) : List RawParam :=
  (segments.zipIdx k).map fun s => ⟨name, some s.2, s.1.1, s.1.2⟩

theorem segmentParams_cons (name : Bytes) (s : Bool × Bytes) (segments : List (Bool × Bytes))
    (k : Nat) : segmentParams name (s :: segments) k =
      ⟨name, some k, s.1, s.2⟩ :: segmentParams name segments (k + 1) := by
  simp [segmentParams]

theorem segmentParams_filter (name n : Bytes) (i : Option Nat) : ∀ (segments : List (Bool × Bytes))
    (k : Nat), (segmentParams name segments k).filter (fun p => p.name == n && p.index == i) =
      if n = name then
        match i with
        | some j => if k ≤ j then
            (segments[j - k]?.map fun s => (⟨name, some j, s.1, s.2⟩ : RawParam)).toList else []
        | none => []
      else []
  | [], k => by cases i <;> simp [segmentParams]
  | s :: segments, k => by
    rw [segmentParams_cons, List.filter_cons, segmentParams_filter name n i segments (k + 1)]
    by_cases hn : n = name
    · subst hn
      cases i with
      | none => simp
      | some j =>
        by_cases hj : k = j
        · subst hj
          simp
          omega
        · have : ¬ (some k = some j) := by simpa using hj
          simp only [beq_self_eq_true, Bool.true_and, beq_iff_eq, this, if_false, if_true]
          by_cases h1 : k + 1 ≤ j
          · rw [if_pos h1, if_pos (by omega)]
            rw [show j - k = (j - (k + 1)) + 1 by omega]
            simp
          · rw [if_neg h1, if_neg (by omega)]
    · have : ¬ name = n := fun h => hn h.symm
      simp [hn, this]

/-- Segments given in any order are put together in the order of their indices, each decoded. -/
theorem C38_any_order (name : Bytes) (s : Bool × Bytes) (segments : List (Bool × Bytes))
    (ps : List RawParam) (hp : ps.Perm (segmentParams name (s :: segments) 0))
    (hlen : segments.length < 255) (charset : Option Bytes) (first : Bytes) (texts : List Bytes)
    (h0 : InitialText c ⟨name, some 0, s.1, s.2⟩ charset first) (hl : texts.length = segments.length)
    (hf : ∀ k (h : k < texts.length) (h' : k < segments.length),
      FurtherText c charset ⟨name, some (k + 1), segments[k].1, segments[k].2⟩ texts[k]) :
    ∃ q, collectParameters c ps = .ok q ∧ q name = some (first ++ texts.flatten) ∧
      ∀ n, n ≠ name → q n = none := by
  have hfil : ∀ (n : Bytes) (i : Option Nat) (l : List RawParam),
      (segmentParams name (s :: segments) 0).filter (fun p => p.name == n && p.index == i) = l →
      l.length ≤ 1 → ps.filter (fun p => p.name == n && p.index == i) = l := by
    intro n i l hl h1
    have h := hp.filter (fun p => p.name == n && p.index == i)
    rw [hl] at h
    match l, h1 with
    | [], _ => exact List.perm_nil.mp h
    | [x], _ => exact List.perm_singleton.mp h
  have hseg : ∀ k, segment ps name k = (s :: segments)[k]?.map fun x => ⟨name, some k, x.1, x.2⟩ := by
    intro k
    unfold segment lastWith
    rw [hfil name (some k) _ (segmentParams_filter ..)]
    · simp
      cases (s :: segments)[k]? <;> simp
    · simp
  have hother : ∀ n, n ≠ name → ∀ i, ps.filter (fun p => p.name == n && p.index == i) = [] := by
    intro n hn i
    rw [hfil n i _ (segmentParams_filter ..)]
    · simp [hn]
    · simp [hn]
  have hidx : ∀ p ∈ ps, ∀ k, p.index = some k → k < 256 := by
    intro p hpm k hk
    have := hp.mem_iff.mp hpm
    unfold segmentParams at this
    obtain ⟨⟨x, j⟩, hx, rfl⟩ := List.mem_map.mp this
    have := List.snd_lt_of_mem_zipIdx hx
    simp only [Option.some.injEq] at hk
    simp at this
    omega
  refine ⟨fun n => if n = name then some (first ++ texts.flatten) else none, ?_, by simp,
    fun n hn => by simp [hn]⟩
  rw [C38_collect_iff c ps _ hidx]
  · intro n
    by_cases hn : n = name
    · subst hn
      unfold ParamValue
      rw [hseg 0]
      refine ⟨charset, first, h0, texts, fun k h => ?_, ?_, by simp⟩
      · refine ⟨⟨n, some (k + 1), segments[k].1, segments[k].2⟩, ?_, hf k h (by omega)⟩
        rw [hseg (k + 1)]
        simp [hl ▸ h]
      · rw [hseg]
        simp [hl]
    · unfold ParamValue segment plainParam lastWith
      rw [hother n hn (some 0), hother n hn none]
      simp [hn]
  · intro _ n
    by_cases hn : n = name
    · subst hn
      refine ⟨255, by omega, ?_⟩
      rw [hseg]
      have : segments.length ≤ 254 := by omega
      simp [this]
    · exact ⟨0, by omega, by unfold segment lastWith; rw [hother n hn]; rfl⟩

/-- Segments out of order, and one after a gap. -/
example : ((outcomeValue (contentType (Cfg.concrete .full)
      (b! "Content-Type: a/b; n*1=\"b c\"; N*0*=UTF-8'en'%C3%A9%26; n*2*=%41; n*4=z\r\n"))).map
    fun r => r.2.2.2 (b! "n")) = some (some (b! "é&b cA")) := by decide +kernel

/-- No segment 0. -/
example : ((outcomeValue (contentType (Cfg.concrete .full)
      (b! "Content-Type: a/b; n*1=\"b c\"; n*2*=%41\r\n"))).map
    fun r => r.2.2.2 (b! "n")) = some none := by decide +kernel

/-! ### C39 -/

/-- The e-mail does not depend on the order in which hash maps are visited. -/
theorem C39_email_order_irrelevant (i : Bytes)
    (o : List (Bytes × Segments) → List (Bytes × Segments)) (ho : ∀ l, (o l).Perm l)
    (hc : c.overflowChecks = true → i.count 42 < 256) :
    Email.parse c i = Email.parse { c with mapOrder := o, mapOrder_perm := ho } i :=
  email_parse_reorder hc

/-- Nor does a MIME entity. -/
theorem C39_entity_order_irrelevant (hm : c.feat.mime = true) (raw : RawEntity)
    (o : List (Bytes × Segments) → List (Bytes × Segments)) (ho : ∀ l, (o l).Perm l)
    (hc : c.overflowChecks = true → raw.value.count 42 < 256) :
    raw.parse c = raw.parse { c with mapOrder := o, mapOrder_perm := ho } :=
  rawEntity_parse_reorder hm raw hc

/-- A parameter with the segments 0 to 255, and one that is not valid UTF-8. -/
def bothBad : List RawParam :=
  ⟨b! "b", some 0, true, b! "UTF-8''%FF"⟩ ::
    (List.range 256).map fun k => ⟨b! "a", some k, false, b! "x"⟩

/-- The condition on the number of asterisks is needed: with overflow checks the order decides
between a panic and an error. -/
theorem C39_order_can_matter :
    collectParameters { Cfg.concrete .full with mapOrder := id, mapOrder_perm := List.Perm.refl }
        bothBad ≠
      collectParameters
        { Cfg.concrete .full with mapOrder := List.reverse, mapOrder_perm := List.reverse_perm }
        bothBad := by
  have key : ∀ x y : Outcome Params, outcomeError x ≠ none → outcomeError y = none → x ≠ y := by
    rintro x y h h' rfl
    exact h h'
  exact key _ _ (by decide +kernel) (by decide +kernel)

/-- Two parameters in several segments, visited in one order and in the other. -/
example : let i := b! "Content-Type: a/b; x*1=b; y*0=c; x*0=a; y*1=d\r\n"
    let run (o : List (Bytes × Segments) → List (Bytes × Segments)) (ho : ∀ l, (o l).Perm l) :=
      (outcomeValue (contentType { Cfg.concrete .full with mapOrder := o, mapOrder_perm := ho } i)).map
        fun r => (r.2.2.2 (b! "x"), r.2.2.2 (b! "y"))
    run id List.Perm.refl = some (some (b! "ab"), some (b! "cd")) ∧
    run List.reverse List.reverse_perm = some (some (b! "ab"), some (b! "cd")) := by
  decide +kernel

/-! ### C48 -/

/-- A number of a MIME version is accepted exactly if it is at most 255, and then it is read exactly. -/
theorem C48_number_iff (ds r : Bytes) (n : Nat) (hne : ds ≠ []) (hd : ∀ d ∈ ds, Spec.digit d = true)
    (hr : Stops Spec.digit r) :
    u8Number (ds ++ r) = .ok (r, n) ↔ decimal ds < 256 ∧ n = decimal ds := by
  obtain ⟨h1, h2⟩ := u8Number_append hne hd hr
  by_cases h : decimal ds < 256
  · rw [h1 h]
    simp [h, eq_comm]
  · obtain ⟨e, he⟩ := h2 (by omega)
    rw [he]
    simp [h]

/-- The same for the numbers of the header field, whatever comments and white space are around them. -/
theorem C48_header_iff (name w ds ds' w' r : Bytes) (major minor : Nat)
    (hn : name.map asciiLower = b! "mime-version:") (hw : OptCfws w ()) (hw' : InlineCfws w' ())
    (hs : w.count 40 ≤ c.stack) (hs' : w'.count 40 ≤ c.stack) (hne : ds ≠ []) (hne' : ds' ≠ [])
    (hd : ∀ d ∈ ds, Spec.digit d = true) (hd' : ∀ d ∈ ds', Spec.digit d = true) :
    mimeVersion c (name ++ (w ++ ds ++ b! "." ++ ds' ++ w' ++ (CRLF ++ r))) =
        .ok (r, (major, minor)) ↔
      (decimal ds < 256 ∧ major = decimal ds) ∧ (decimal ds' < 256 ∧ minor = decimal ds') := by
  have hstop : Stops Spec.digit (w' ++ (CRLF ++ r)) := by
    have key : ∀ x : UInt8, Spec.wsp x = true → Spec.digit x = false := by decide +kernel
    obtain ⟨a, _, va, rfl, ⟨rfl, ha⟩, x, _, o, rfl, hx, b, _, vb, rfl, ⟨rfl, hb⟩, rfl, _⟩ := hw'
    cases va with
    | cons y va => exact stops_cons.mpr (key y (ha y (by simp)))
    | nil =>
      rcases hx with ⟨rfl, rfl⟩ | ⟨⟨⟩, rfl, n, hx⟩
      · cases vb with
        | cons y vb => exact stops_cons.mpr (key y (hb y (by simp)))
        | nil => exact stops_cons.mpr (by decide)
      · obtain ⟨t, rfl⟩ := commentN_head n _ _ hx
        exact stops_cons.mpr (by decide)
  have e : w ++ ds ++ b! "." ++ ds' ++ w' ++ (CRLF ++ r) =
      w ++ (ds ++ (b! "." ++ (ds' ++ (w' ++ (CRLF ++ r))))) := by simp
  have h1 := skipCfws_append (c := c) (r := ds ++ (b! "." ++ (ds' ++ (w' ++ (CRLF ++ r))))) (gap_of_count hw hs)
    (digit_cfwsEnd hne hd)
  obtain ⟨h2, h2'⟩ := u8Number_append (r := b! "." ++ (ds' ++ (w' ++ (CRLF ++ r)))) hne hd
    (stops_cons.mpr (by decide))
  obtain ⟨h3, h3'⟩ := u8Number_append (r := w' ++ (CRLF ++ r)) hne' hd' hstop
  have h4 := ignoreInlineCfws_append (c := c) hw' hs' (crlf_cfwsStop (r := r))
  unfold mimeVersion
  rw [e]
  by_cases hb : decimal ds < 256
  · by_cases hb' : decimal ds' < 256
    · have : mimeVersionValue c (w ++ (ds ++ (b! "." ++ (ds' ++ w'))) ++ (CRLF ++ r)) =
          .ok (CRLF ++ r, (decimal ds, decimal ds')) := by
        unfold mimeVersionValue
        simp only [List.append_assoc, h1, ok_bind, h2 hb, tag_append, h3 hb', h4]
      have := headerLine_append (name := b! "MIME-Version:") (name2 := b! "mime-vERSION:")
        (m := "TAG NO CASE ERROR: Header name (Mime-Version) does not match.")
        (m' := "TAG ERROR: A header (`MIME-Version` in this case) must end with a CRLF sequence.")
        (by decide +kernel) hn this
      simp only [List.append_assoc] at this
      rw [this]
      simp [hb, hb', eq_comm]
    · obtain ⟨x, hx⟩ := h3' (by omega)
      obtain ⟨y, hy⟩ := headerLine_err (name := b! "MIME-Version:") (name2 := b! "mime-vERSION:")
        (m := "TAG NO CASE ERROR: Header name (Mime-Version) does not match.")
        (m' := "TAG ERROR: A header (`MIME-Version` in this case) must end with a CRLF sequence.")
        (p := mimeVersionValue c)
        (t := w ++ (ds ++ (b! "." ++ (ds' ++ (w' ++ (CRLF ++ r))))))
        (by decide +kernel) hn ⟨x, by
          unfold mimeVersionValue
          simp only [h1, ok_bind, h2 hb, tag_append, hx, err_bind]⟩
      rw [hy]
      simp [hb']
  · obtain ⟨x, hx⟩ := h2' (by omega)
    obtain ⟨y, hy⟩ := headerLine_err (name := b! "MIME-Version:") (name2 := b! "mime-vERSION:")
      (m := "TAG NO CASE ERROR: Header name (Mime-Version) does not match.")
      (m' := "TAG ERROR: A header (`MIME-Version` in this case) must end with a CRLF sequence.")
      (p := mimeVersionValue c)
      (t := w ++ (ds ++ (b! "." ++ (ds' ++ (w' ++ (CRLF ++ r))))))
      (by decide +kernel) hn ⟨x, by
        unfold mimeVersionValue
        simp only [h1, ok_bind, hx, err_bind]⟩
    rw [hy]
    simp [hb]

example : outcomeValue (mimeVersion (Cfg.concrete .full) (b! "Mime-version: (a) 001.255\r\nX")) =
    some (b! "X", (1, 255)) ∧
    outcomeValue (mimeVersion (Cfg.concrete .full) (b! "Mime-version: 256.0\r\nX")) = none := by
  decide +kernel

end EmailParser
