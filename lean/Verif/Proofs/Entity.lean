import Verif.Spec.Entity
import Verif.Proofs.Message
/-
MIME entities and multipart bodies (src/parsing/mime/entity.rs, multipart.rs).
-/
namespace EmailParser
open Spec (Gram)

variable {α : Type} {c : Cfg}

/-! ### Headers of a part -/

theorem entityHeader_parses (hm : c.feat.mime = true) :
    Parses (aborts c) (Spec.EntityHeaderG c) (entityHeader c) := by
  intro i
  refine matchParsers_psat fun p hp => ?_
  simp only [List.mem_cons, List.not_mem_nil, or_false] at hp
  rcases hp with rfl | rfl | rfl | rfl | rfl | rfl
  · exact mapValue_psat contentTransferEncoding_parses (fun w v hv => by exact hv) i
  · exact mapValue_psat (contentType_parses hm) (fun w v hv => by exact hv) i
  · exact mapValue_psat contentId_parses (fun w v hv => by exact hv) i
  · exact mapValue_psat contentDescription_parses (fun w v hv => by exact hv) i
  · exact mapValue_psat (contentDisposition_parses hm) (fun w v hv => by exact hv) i
  · exact mapValue_psat unknown_parses (fun w v hv => by exact hv) i

theorem entityHeader_progress : Progress (Spec.EntityHeaderG c) := by
  intro w h hw
  cases h with
  | other n v => exact progress_bind_left progress_chars1 _ _ hw
  | _ => exact headerLine_progress (by decide) _ _ hw

/-- The headers of a part and the length of its body. -/
theorem headerPart_sat (hm : c.feat.mime = true) (i : Bytes) :
    (headerPart c i).Sat (fun r => ∃ hs body, Spec.PartText c i hs body ∧ r.1 = body.length ∧
      body <:+ i ∧ r.2 = hs.foldl EntityHeaders.add {}) ((aborts c).P i) := by
  unfold headerPart
  have h := many_parses entityHeader_progress (entityHeader_parses hm) i
  dsimp only at h
  cases hx : many i (entityHeader c) with
  | abort k => rw [hx] at h; exact h
  | err e => trivial
  | ok r =>
    rw [hx] at h
    obtain ⟨r, hs⟩ := r
    obtain ⟨w, hi, hw⟩ := h
    dsimp only at hi hw
    simp only [ok_bind]
    split
    · rename_i hr
      have hr : r = [] := by simpa using hr
      subst hr
      exact ⟨hs, [], ⟨w, hw, .inl ⟨by simpa using hi, rfl⟩⟩, rfl, List.nil_suffix, rfl⟩
    · rcases tag_cases r (b! "\r\n")
          "TAG ERROR: A MIME entity header part must be followed by a CRLF sequence." with
        ⟨t, ht, hd⟩ | ⟨hn, hd⟩
      · rw [hd]
        exact ⟨hs, t, ⟨w, hw, .inr (by rw [hi, ht]; simp [Spec.CRLF])⟩, rfl,
          ⟨w ++ b! "\r\n", by rw [hi, ht]; simp⟩, rfl⟩
      · rw [hd]; trivial

theorem entityBody_suffix {body i : Bytes} (h : body <:+ i) : entityBody i body.length = .ok body := by
  obtain ⟨w, rfl⟩ := h
  unfold entityBody
  rw [if_pos (by simp)]
  have : (w ++ body).length - body.length = w.length := by simp
  rw [this]
  unfold sliceFrom
  simp

/-- What `raw_entity` makes of the headers and the body. -/
def entityOf (h : EntityHeaders) (value : Bytes) : RawEntity :=
  { mimeType := (h.mimeType.getD defaultType).1
    subtype := (h.mimeType.getD defaultType).2.1
    description := h.description
    id := h.id
    parameters := (h.mimeType.getD defaultType).2.2
    disposition := h.disposition
    value
    additionalHeaders := h.additionalHeaders }

theorem rawEntity_eq {i body : Bytes} {h : EntityHeaders} (hh : headerPart c i = .ok (body.length, h))
    (hb : body <:+ i) : rawEntity c i =
      (decodeValue body (h.encoding.getD .sevenBit)).bind fun v => .ok (entityOf h v) := by
  unfold rawEntity
  simp only [hh, ok_bind, entityBody_suffix hb]
  cases decodeValue body (h.encoding.getD .sevenBit) <;> rfl

theorem rawEntity_sat (hm : c.feat.mime = true) (i : Bytes) :
    (rawEntity c i).Sat (fun e => ∃ hs body v, Spec.PartText c i hs body ∧
      decodeValue body ((hs.foldl EntityHeaders.add {}).encoding.getD .sevenBit) = .ok v ∧
      e = entityOf (hs.foldl EntityHeaders.add {}) v) ((aborts c).P i) := by
  have h := headerPart_sat hm i
  cases hx : headerPart c i with
  | abort k =>
    rw [hx] at h
    unfold rawEntity
    rw [hx]; exact h
  | err e => unfold rawEntity; rw [hx]; trivial
  | ok r =>
    rw [hx] at h
    obtain ⟨n, hd⟩ := r
    obtain ⟨hs, body, hp, rfl, hb, rfl⟩ := h
    rw [rawEntity_eq hx hb]
    cases hd : decodeValue body ((hs.foldl EntityHeaders.add {}).encoding.getD .sevenBit) with
    | abort k => exact absurd hd (decodeValue_no_abort _ _ _)
    | err e => trivial
    | ok v => exact ⟨hs, body, v, hp, hd, rfl⟩

/-! ### Delimiters -/

theorem getRange_iff {i s : Bytes} {a b : Nat} (hb : b = a + s.length) :
    (getRange i a b == some s) = true ↔ s <+: i.drop a ∧ a + s.length ≤ i.length := by
  subst hb
  unfold getRange
  rw [beq_iff_eq]
  constructor
  · intro h
    split at h
    · rename_i hb
      simp only [Option.some.injEq] at h
      refine ⟨?_, hb.2⟩
      rw [← h]
      exact List.take_prefix _ _
    · cases h
  · intro ⟨h, hl⟩
    rw [if_pos ⟨by omega, hl⟩]
    have h := List.prefix_iff_eq_take.1 h
    rw [Nat.add_sub_cancel_left, ← h]

theorem prefix_drop_append {i s t : Bytes} {a : Nat} :
    s ++ t <+: i.drop a ↔ s <+: i.drop a ∧ t <+: i.drop (a + s.length) := by
  rw [← List.drop_drop]
  constructor
  · rintro ⟨u, hu⟩
    rw [← hu]
    exact ⟨⟨t ++ u, by simp⟩, ⟨u, by simp⟩⟩
  · rintro ⟨⟨u, hu⟩, v, hv⟩
    rw [← hu] at hv ⊢
    rw [List.drop_left] at hv
    exact ⟨v, by rw [← hv]; simp⟩

theorem prefix_drop_length {i s : Bytes} {a : Nat} (h : s <+: i.drop a) (hs : s ≠ []) :
    a + s.length ≤ i.length := by
  have := h.length_le
  have h0 : 0 < s.length := List.length_pos_iff.2 hs
  rw [List.length_drop] at this
  omega

/-- The three comparisons of `before_boundary_idx` and `before_closing_boundary_idx` together. -/
theorem ranges_iff {i x b y : Bytes} {k m n l : Nat} (hm : m = k + x.length) (hn : n = m + b.length)
    (hl : l = n + y.length) (hy : y ≠ []) :
    (getRange i k m == some x && getRange i m n == some b && getRange i n l == some y) = true ↔
      Spec.OccursAt (x ++ b ++ y) i k := by
  rw [Bool.and_eq_true, Bool.and_eq_true, getRange_iff hm, getRange_iff hn, getRange_iff hl]
  unfold Spec.OccursAt
  rw [prefix_drop_append, prefix_drop_append]
  subst hm hn hl
  rw [List.length_append, ← Nat.add_assoc]
  constructor
  · rintro ⟨⟨⟨h1, _⟩, h2, _⟩, h3, _⟩
    exact ⟨⟨h1, h2⟩, h3⟩
  · rintro ⟨⟨h1, h2⟩, h3⟩
    have := prefix_drop_length h3 hy
    exact ⟨⟨⟨h1, by omega⟩, h2, by omega⟩, h3, this⟩

theorem findIndex_spec (cond : Nat → Bool) : ∀ n idx,
    match findIndex cond idx n with
    | some k => idx ≤ k ∧ k < idx + n ∧ cond k = true ∧ ∀ j, idx ≤ j → j < k → cond j = false
    | none => ∀ j, idx ≤ j → j < idx + n → cond j = false := by
  intro n
  induction n with
  | zero => intro idx; unfold findIndex; intro j h1 h2; omega
  | succ n ih =>
    intro idx
    unfold findIndex
    by_cases hc : cond idx = true
    · rw [if_pos hc]
      exact ⟨Nat.le_refl _, by omega, hc, fun j h1 h2 => by omega⟩
    · rw [if_neg hc]
      have h := ih (idx + 1)
      cases hf : findIndex cond (idx + 1) n with
      | none =>
        rw [hf] at h
        intro j h1 h2
        by_cases hj : j = idx
        · subst hj; simpa using hc
        · exact h j (by omega) (by omega)
      | some k =>
        rw [hf] at h
        obtain ⟨h1, h2, h3, h4⟩ := h
        refine ⟨by omega, by omega, h3, fun j hj1 hj2 => ?_⟩
        by_cases hj : j = idx
        · subst hj; simpa using hc
        · exact h4 j (by omega) hj2

/-- Searching for a byte string. -/
theorem findIndex_occurs {cond : Nat → Bool} {w i : Bytes} (hw : w ≠ [])
    (hc : ∀ k, cond k = true ↔ Spec.OccursAt w i k) :
    match findIndex cond 0 i.length with
    | some k => ∃ p rest, p.length = k ∧ Spec.FirstOccurrence w i p rest
    | none => ¬ Spec.Occurs w i := by
  have h := findIndex_spec cond i.length 0
  cases hf : findIndex cond 0 i.length with
  | none =>
    rw [hf] at h
    rintro ⟨k, hk⟩
    have hl := prefix_drop_length hk hw
    have h0 : 0 < w.length := List.length_pos_iff.2 hw
    have := h k (Nat.zero_le _) (by omega)
    rw [(hc k).2 hk] at this
    cases this
  | some k =>
    rw [hf] at h
    obtain ⟨-, hk, hck, hmin⟩ := h
    obtain ⟨rest, hr⟩ := (hc k).1 hck
    have hpl : (i.take k).length = k := by rw [List.length_take]; omega
    refine ⟨i.take k, rest, hpl, ?_, fun j hj ho => ?_⟩
    · rw [List.append_assoc, hr, List.take_append_drop]
    · rw [hpl] at hj
      have := hmin j (Nat.zero_le _) hj
      rw [(hc j).2 ho] at this
      cases this

/-- One step of the splitting. -/
theorem beforeBoundary_cases (b i : Bytes) :
    (∃ rest, i = Spec.dashBoundary b ++ Spec.CRLF ++ rest ∧ beforeBoundary b i = .ok (rest, [])) ∨
    (¬ (Spec.dashBoundary b ++ Spec.CRLF <+: i) ∧ ∃ p rest,
      Spec.FirstOccurrence (Spec.delimiter b) i p rest ∧ beforeBoundary b i = .ok (rest, p)) ∨
    (¬ (Spec.dashBoundary b ++ Spec.CRLF <+: i) ∧ ¬ Spec.Occurs (Spec.delimiter b) i ∧
      beforeBoundary b i = .err (.unknown "boundary not found")) := by
  have hopen := ranges_iff (i := i) (x := b! "--") (b := b) (y := b! "\r\n") (k := 0) (m := 2)
    (n := 2 + b.length) (l := 2 + 2 + b.length + 2 - 2) rfl rfl
    (by show _ = 2 + b.length + 2; omega) (by decide)
  have hsome : ∀ k, _ := fun k => ranges_iff (i := i) (x := b! "\r\n--") (b := b) (y := b! "\r\n")
    (k := k) (m := k + 4) (n := k + 4 + b.length) (l := k + (2 + 2 + b.length + 2)) rfl rfl
    (by show _ = k + 4 + b.length + 2; omega) (by decide)
  have hfind := findIndex_occurs (by simp) hsome
  have hdash : ∀ j, b! "--" ++ b ++ b! "\r\n" <+: j ↔ Spec.dashBoundary b ++ Spec.CRLF <+: j :=
    fun j => Iff.rfl
  rw [Spec.OccursAt, List.drop_zero, hdash] at hopen
  unfold beforeBoundary beforeBoundaryIdx
  by_cases ho : Spec.dashBoundary b ++ Spec.CRLF <+: i
  · left
    have hlen := ho.length_le
    obtain ⟨rest, rfl⟩ := ho
    refine ⟨rest, rfl, ?_⟩
    have h := hopen.2 ⟨rest, rfl⟩
    rw [Bool.and_eq_true, Bool.and_eq_true] at h
    have hl : 2 + 2 + b.length + 2 - 2 = (Spec.dashBoundary b ++ Spec.CRLF).length := by
      simp [Spec.dashBoundary, Spec.CRLF]; omega
    rw [if_pos (by
      simp only [Bool.and_eq_true, decide_eq_true_eq]
      exact ⟨⟨⟨by omega, h.1.1⟩, h.1.2⟩, h.2⟩)]
    simp only [ok_bind]
    rw [hl, Nat.zero_add, getUncheckedFrom_append]
    have := getUncheckedTo_append [] (Spec.dashBoundary b ++ Spec.CRLF ++ rest)
    simp only [List.nil_append, List.length_nil] at this
    simp only [ok_bind, this]
  · right
    have h := mt hopen.1 ho
    rw [if_neg (by
      intro hc
      apply h
      simp only [Bool.and_eq_true] at hc ⊢
      exact ⟨⟨hc.1.1.2, hc.1.2⟩, hc.2⟩)]
    have hw : ∀ p rest, Spec.FirstOccurrence (b! "\r\n--" ++ b ++ b! "\r\n") i p rest →
        Spec.FirstOccurrence (Spec.delimiter b) i p rest := fun p rest h => h
    revert hfind
    cases hf : findIndex _ 0 i.length with
    | none =>
      intro hfind
      exact .inr ⟨ho, hfind, rfl⟩
    | some k =>
      intro hfind
      obtain ⟨p, rest, rfl, hfo⟩ := hfind
      refine .inl ⟨ho, p, rest, hw _ _ hfo, ?_⟩
      obtain ⟨rfl, -⟩ := hfo
      simp only [ok_bind]
      have hl : p.length + (2 + 2 + b.length + 2) =
          (p ++ (b! "\r\n--" ++ b ++ b! "\r\n")).length := by
        simp; omega
      rw [hl, getUncheckedFrom_append]
      simp only [ok_bind]
      rw [List.append_assoc, getUncheckedTo_append]
      rfl

/-- The end of the splitting. -/
theorem beforeClosingBoundary_cases (b i : Bytes) :
    (∃ p rest, Spec.FirstOccurrence (Spec.closeDelimiter b) i p rest ∧
      beforeClosingBoundary b i = .ok (rest, p)) ∨
    (¬ Spec.Occurs (Spec.closeDelimiter b) i ∧
      beforeClosingBoundary b i = .err (.unknown "closing boundary not found")) := by
  have hsome : ∀ k, _ := fun k => ranges_iff (i := i) (x := b! "\r\n--") (b := b)
    (y := b! "--\r\n")
    (k := k) (m := k + 4) (n := k + 4 + b.length) (l := k + (2 + 2 + b.length + 2 + 2)) rfl rfl
    (by show _ = k + 4 + b.length + 4; omega) (by decide)
  have hfind := findIndex_occurs (by simp) hsome
  have hw : Spec.closeDelimiter b = b! "\r\n--" ++ b ++ b! "--\r\n" := by
    simp [Spec.closeDelimiter, Spec.dashBoundary, Spec.CRLF]
  rw [hw]
  unfold beforeClosingBoundary beforeClosingBoundaryIdx
  dsimp only
  cases hf : findIndex _ 0 i.length with
  | none => rw [hf] at hfind; exact .inr ⟨hfind, rfl⟩
  | some k =>
    rw [hf] at hfind
    obtain ⟨p, rest, rfl, hfo⟩ := hfind
    refine .inl ⟨p, rest, hfo, ?_⟩
    replace hfo := hfo.1
    simp only [ok_bind]
    clear hf hsome
    subst hfo
    have hl : p.length + (2 + 2 + b.length + 2 + 2) =
        (p ++ (b! "\r\n--" ++ b ++ b! "--\r\n")).length := by
      simp; omega
    rw [hl, getUncheckedFrom_append]
    simp only [ok_bind]
    rw [List.append_assoc, getUncheckedTo_append]
    rfl

theorem manyLoop_cut (b : Bytes) : ∀ fuel i, i.length < fuel →
    ∃ ps rest, manyLoop (beforeBoundary b) fuel i = .ok (rest, ps) ∧ Spec.Cut b i ps rest := by
  intro fuel
  induction fuel with
  | zero => intro i h; omega
  | succ fuel ih =>
    intro i h
    unfold manyLoop
    rcases beforeBoundary_cases b i with ⟨i', rfl, hb⟩ | ⟨hn, p, i', hfo, hb⟩ | ⟨hn, ho, hb⟩
    · rw [hb]
      obtain ⟨ps, rest, hm, hc⟩ := ih i' (by
        simp only [List.length_append, Spec.dashBoundary, Spec.CRLF, List.length_cons] at h
        omega)
      exact ⟨[] :: ps, rest, by simp only [hm, ok_bind], .start hc⟩
    · rw [hb]
      obtain ⟨ps, rest, hm, hc⟩ := ih i' (by
        rw [hfo.1] at h
        simp only [List.length_append, Spec.delimiter, Spec.dashBoundary, Spec.CRLF,
          List.length_cons] at h
        omega)
      exact ⟨p :: ps, rest, by simp only [hm, ok_bind], .next hn hfo hc⟩
    · rw [hb]
      exact ⟨[], i, rfl, .stop hn ho⟩

theorem Spec.FirstOccurrence.occurs {w i p rest : Bytes} (h : Spec.FirstOccurrence w i p rest) :
    Spec.OccursAt w i p.length :=
  ⟨rest, by rw [h.1, List.append_assoc, List.drop_left]⟩

theorem Spec.FirstOccurrence.unique {w i p rest p' rest' : Bytes} (h : Spec.FirstOccurrence w i p rest)
    (h' : Spec.FirstOccurrence w i p' rest') : p = p' ∧ rest = rest' := by
  have hl : p.length = p'.length := by
    rcases Nat.lt_trichotomy p.length p'.length with hlt | heq | hgt
    · exact absurd h.occurs (h'.2 _ hlt)
    · exact heq
    · exact absurd h'.occurs (h.2 _ hgt)
  have he := h.1.symm.trans h'.1
  rw [List.append_assoc, List.append_assoc] at he
  have h1 := List.append_inj he hl
  exact ⟨h1.1, List.append_cancel_left h1.2⟩

theorem Cut.unique {b i rest rest' : Bytes} {ps ps' : List Bytes} (h : Spec.Cut b i ps rest)
    (h' : Spec.Cut b i ps' rest') : ps = ps' ∧ rest = rest' := by
  induction h generalizing ps' rest' with
  | stop hn ho =>
    cases h' with
    | stop => exact ⟨rfl, rfl⟩
    | start => exact absurd ⟨_, rfl⟩ hn
    | next _ hfo _ => exact absurd ⟨_, hfo.occurs⟩ ho
  | start hc ih =>
    rename_i j qs r
    generalize hj : Spec.dashBoundary b ++ Spec.CRLF ++ j = jj at h'
    cases h' with
    | stop hn => exact absurd ⟨_, hj⟩ hn
    | next hn => exact absurd ⟨_, hj⟩ hn
    | start hc' =>
      have := List.append_cancel_left hj
      subst this
      obtain ⟨rfl, rfl⟩ := ih hc'
      exact ⟨rfl, rfl⟩
  | next hn hfo hc ih =>
    cases h' with
    | stop _ ho => exact absurd ⟨_, hfo.occurs⟩ ho
    | start => exact absurd ⟨_, rfl⟩ hn
    | next hn' hfo' hc' =>
      obtain ⟨rfl, rfl⟩ := Spec.FirstOccurrence.unique hfo hfo'
      obtain ⟨rfl, rfl⟩ := ih hc'
      exact ⟨rfl, rfl⟩

/-- Splitting a multipart body. -/
theorem multipartParts_cases (i b : Bytes) :
    (∃ parts, multipartParts i b = .ok parts ∧ Spec.MultipartText b i parts) ∨
    (multipartParts i b = .err (.unknown "closing boundary not found") ∧
      ∀ parts, ¬ Spec.MultipartText b i parts) := by
  obtain ⟨ps, rest, hm, hc⟩ := manyLoop_cut b (i.length + 1) i (by omega)
  unfold multipartParts many
  rw [hm]
  simp only [ok_bind]
  rcases beforeClosingBoundary_cases b rest with ⟨last, epi, hfo, hb⟩ | ⟨ho, hb⟩
  · left
    rw [hb]
    simp only [ok_bind]
    cases he : ps ++ [last] with
    | nil => simp at he
    | cons pre parts => exact ⟨parts, rfl, pre, ps, rest, last, epi, hc, hfo, he⟩
  · right
    rw [hb]
    refine ⟨rfl, ?_⟩
    rintro parts ⟨pre, ps', rest', last, epi, hc', hfo, -⟩
    obtain ⟨rfl, rfl⟩ := Cut.unique hc hc'
    exact ho ⟨_, hfo.occurs⟩

theorem MultipartText.unique {b i : Bytes} {ps ps' : List Bytes} (h : Spec.MultipartText b i ps)
    (h' : Spec.MultipartText b i ps') : ps = ps' := by
  obtain ⟨pre, pieces, rest, last, epi, hc, hfo, he⟩ := h
  obtain ⟨pre', pieces', rest', last', epi', hc', hfo', he'⟩ := h'
  obtain ⟨rfl, rfl⟩ := Cut.unique hc hc'
  obtain ⟨rfl, rfl⟩ := Spec.FirstOccurrence.unique hfo hfo'
  rw [he] at he'
  exact (List.cons.inj he').2

theorem multipartParts_iff (i b : Bytes) (parts : List Bytes) :
    multipartParts i b = .ok parts ↔ Spec.MultipartText b i parts := by
  rcases multipartParts_cases i b with ⟨ps, h, hm⟩ | ⟨h, hn⟩
  · rw [h]
    constructor
    · rintro ⟨⟩; exact hm
    · intro h'; rw [MultipartText.unique hm h']
  · rw [h]
    exact ⟨by rintro ⟨⟩, fun h => absurd h (hn _)⟩

/-! ### Parsing an entity -/

theorem Cut.sublist {b i rest : Bytes} {ps : List Bytes} (h : Spec.Cut b i ps rest) :
    (∀ p ∈ ps, p <:+: i) ∧ rest <:+ i := by
  induction h with
  | stop => exact ⟨by simp, List.suffix_rfl⟩
  | start hc ih =>
    refine ⟨fun p hp => ?_, ih.2.trans (List.suffix_append _ _)⟩
    rcases List.mem_cons.1 hp with rfl | hp
    · exact List.nil_infix
    · exact (ih.1 p hp).trans (List.suffix_append _ _).isInfix
  | next hn hfo hc ih =>
    obtain ⟨rfl, -⟩ := hfo
    refine ⟨fun p hp => ?_, ih.2.trans (List.suffix_append _ _)⟩
    rcases List.mem_cons.1 hp with rfl | hp
    · exact ⟨[], Spec.delimiter b ++ _, by simp; rfl⟩
    · exact (ih.1 p hp).trans (List.suffix_append _ _).isInfix

theorem MultipartText.infix {b i : Bytes} {parts : List Bytes} (h : Spec.MultipartText b i parts) :
    ∀ p ∈ parts, p <:+: i := by
  obtain ⟨pre, pieces, rest, last, epi, hc, ⟨hfo, -⟩, he⟩ := h
  intro p hp
  have hp : p ∈ pieces ++ [last] := by rw [he]; simp [hp]
  rcases List.mem_append.1 hp with hp | hp
  · exact (Cut.sublist hc).1 p hp
  · rw [List.mem_singleton.1 hp]
    have : last <:+: rest := ⟨[], Spec.closeDelimiter b ++ epi, by rw [hfo]; simp⟩
    exact this.trans (Cut.sublist hc).2.isInfix

theorem aborts_infix {i j : Bytes} {k : Abort} (h : i <:+: j) (ha : (aborts c).P i k) :
    (aborts c).P j k := by
  have hc : ∀ x, i.count x ≤ j.count x := fun x => h.sublist.count_le x
  rcases ha with ⟨rfl, h⟩ | ⟨rfl, ho, hm, h⟩
  · exact .inl ⟨rfl, Nat.lt_of_lt_of_le h (hc _)⟩
  · exact .inr ⟨rfl, ho, hm, Nat.le_trans h (hc _)⟩

theorem rawEntities_abort (hm : c.feat.mime = true) {i : Bytes} : ∀ (ps : List Bytes) (k : Abort),
    (∀ p ∈ ps, p <:+: i) → rawEntities c ps = .abort k → (aborts c).P i k
  | [], k, _, h => by cases h
  | p :: ps, k, hp, h => by
    unfold rawEntities at h
    have h1 := rawEntity_sat hm p
    cases hx : rawEntity c p with
    | abort k' =>
      rw [hx] at h h1
      cases h
      exact aborts_infix (hp p (by simp)) h1
    | err e => rw [hx] at h; cases h
    | ok e =>
      rw [hx] at h
      simp only [ok_bind] at h
      cases hy : rawEntities c ps with
      | abort k' =>
        rw [hy] at h
        cases h
        exact rawEntities_abort hm ps _ (fun q hq => hp q (by simp [hq])) hy
      | err e => rw [hy] at h; cases h
      | ok es => rw [hy] at h; cases h

/-- Parsing an entity reaches no abort but those of its content. -/
theorem rawEntity_parse_abort (hm : c.feat.mime = true) (raw : RawEntity) (k : Abort)
    (h : raw.parse c = .abort k) : (aborts c).P raw.value k := by
  unfold RawEntity.parse at h
  split at h
  · unfold parseMultipart at h
    cases hb : raw.parameters (b! "boundary") with
    | none => rw [hb] at h; cases h
    | some b =>
      rw [hb] at h
      dsimp only at h
      rcases multipartParts_cases raw.value b with ⟨ps, hx, hmt⟩ | ⟨hx, -⟩
      · rw [hx] at h
        simp only [ok_bind] at h
        cases hy : rawEntities c ps with
        | abort k' =>
          rw [hy] at h
          cases h
          exact rawEntities_abort hm ps _ (MultipartText.infix hmt) hy
        | err e => rw [hy] at h; cases h
        | ok es => rw [hy] at h; cases h
      · rw [hx] at h; cases h
  · split at h
    · split at h
      · unfold decodeCharset at h
        split at h
        · rename_i ht
          split at ht
          · cases ht
            split at h <;> cases h
          · split at ht
            · cases ht; cases h
            · cases ht
        · cases h
      · cases h
    · cases h

end EmailParser
