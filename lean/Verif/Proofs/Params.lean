import Verif.Spec.Params
import Verif.Proofs.Sound.Common
/-
The parameters of src/parsing/mime/percent_encoding.rs against Spec/Params.lean.
-/
namespace EmailParser

variable {c : Cfg}

/-! ### Percent-decoding -/

theorem hexValue_fromHex : ∀ b : UInt8, Spec.hexValue b = fromHex b := by decide +kernel

theorem hexByte (x y : UInt8) (hx : x.toNat < 16) (hy : y.toNat < 16) :
    u8 (x.toNat * 16 + y.toNat) = .ok (x.toNat * 16 + y.toNat) ∧
      UInt8.ofNat (x.toNat * 16 + y.toNat) = x * 16 + y := by
  refine ⟨u8_ok' (by omega), ?_⟩
  apply UInt8.toNat_inj.mp
  simp
where
  u8_ok' {n : Nat} (h : n < 256) : u8 n = .ok n := by simp [u8, h]

theorem percentLoop_append (data : Bytes) (ps qs : List Nat) :
    percentLoop data (ps ++ qs) = percentLoop data ps >>= fun data => percentLoop data qs := by
  induction ps generalizing data with
  | nil => rfl
  | cons p ps ih =>
    simp only [List.cons_append, percentLoop, outcome_bind_assoc]
    cases percentStep data p with
    | ok d => simp only [ok_bind]; exact ih d
    | err e => rfl
    | abort k => rfl

theorem vecErase_append (u : Bytes) (x : UInt8) (v : Bytes) :
    vecErase (u ++ x :: v) u.length = .ok (u ++ v) := by
  simp [vecErase, List.drop_append]

/-- One step, in the middle of the data. -/
theorem percentStep_eq (u v : Bytes) :
    percentStep (u ++ 37 :: v) u.length = .ok (u ++
      match v with
      | x :: y :: rest =>
        match Spec.hexValue x, Spec.hexValue y with
        | some x, some y => (x * 16 + y) :: rest
        | _, _ => 37 :: x :: y :: rest
      | rest => 37 :: rest) := by
  unfold percentStep
  match v with
  | [] => simp
  | [x] => simp
  | x :: y :: rest =>
    have h1 : (u ++ 37 :: x :: y :: rest)[u.length + 1]? = some x := by simp
    have h2 : (u ++ 37 :: x :: y :: rest)[u.length + 2]? = some y := by simp
    simp only [h1, h2, hexValue_fromHex]
    cases hx : fromHex x with
    | none => simp
    | some a =>
      cases hy : fromHex y with
      | none => simp
      | some b =>
        have ha := fromHex_lt hx
        have hb := fromHex_lt hy
        obtain ⟨e1, e2⟩ := hexByte a b ha hb
        have s1 : getUncheckedMutSet (u ++ 37 :: x :: y :: rest) u.length (a * 16 + b)
            = .ok (u ++ (a * 16 + b) :: x :: y :: rest) := by
          simp [getUncheckedMutSet]
        have s2 := vecErase_append (u ++ [a * 16 + b, x]) y rest
        have s3 := vecErase_append (u ++ [a * 16 + b]) x rest
        simp at s2 s3
        simp [e1, e2, s1, s2, s3]

theorem percentLoop_eq (u v : Bytes) :
    percentLoop (u ++ v) (percentPositions u.length v).reverse
      = .ok (u ++ Spec.pctDecodeRight v) := by
  induction v generalizing u with
  | nil => simp [percentPositions, percentLoop, Spec.pctDecodeRight]
  | cons b v ih =>
    have ih := ih (u ++ [b])
    simp only [List.length_append, List.length_cons, List.length_nil, List.append_assoc,
      List.cons_append, List.nil_append, Nat.zero_add] at ih
    unfold percentPositions Spec.pctDecodeRight
    by_cases hb : b = 37
    · subst hb
      simp only [beq_self_eq_true, if_true, List.reverse_cons]
      rw [percentLoop_append, ih, ok_bind]
      simp only [percentLoop]
      rw [percentStep_eq, ok_bind]
      rfl
    · simp only [beq_iff_eq, hb, if_false]
      exact ih

theorem lookup_knownCharset (name : Bytes) :
    (textcodeTable.lookup name).isSome = true ↔ ∃ t, name = Spec.charsetName t := by
  constructor
  · intro h
    obtain ⟨t, hl⟩ := Option.isSome_iff_exists.mp h
    refine ⟨t, ?_⟩
    revert hl
    unfold textcodeTable
    simp only [List.lookup]
    intro hl
    repeat' split at hl
    all_goals first
      | (simp at hl; done)
      | (rename_i hb; simp only [Option.some.injEq] at hl; subst hl; exact eq_of_beq hb)
  · rintro ⟨t, rfl⟩
    cases t <;> rfl

theorem lookup_charsetName (t : Textcode) :
    textcodeTable.lookup (Spec.charsetName t) = some t := by cases t <;> rfl

theorem knownCharset_iff (name : Bytes) : knownCharset name = true ↔ Spec.KnownCharset name := by
  unfold knownCharset Spec.KnownCharset
  simp only [Bool.or_eq_true, beq_iff_eq, lookup_knownCharset, or_assoc]

theorem decodeCharset_of_text {name bytes text : Bytes} (h : Spec.CharsetText c name bytes text) :
    decodeCharset c name bytes = some (.ok text) := by
  rcases h with ⟨hn, hv, rfl⟩ | ⟨t, rfl, rfl⟩
  · unfold decodeCharset
    rw [if_pos (by simpa using hn)]
    simp [hv]
  · unfold decodeCharset
    rw [if_neg (by cases t <;> decide), lookup_charsetName]

/-- The text of a segment: `decode_parameter` finds it if there is one, and never aborts. -/
theorem decodeParameter_iff {bytes charset text : Bytes} :
    decodeParameter c bytes charset = .ok text ↔ Spec.SegmentText c charset bytes text := by
  unfold decodeParameter Spec.SegmentText
  rw [← knownCharset_iff]
  cases hk : knownCharset charset with
  | false =>
    simp
    exact eq_comm
  | true =>
    simp only [Bool.not_true, Bool.false_eq_true, if_false, true_and, not_true_eq_false, false_and,
      or_false]
    have := percentLoop_eq [] bytes
    simp only [List.length_nil, List.nil_append] at this
    rw [this, ok_bind]
    constructor
    · intro h
      have hd := decodeCharset_spec (c := c) (name := charset)
        (bytes := Spec.pctDecodeRight bytes)
      revert hd h
      cases decodeCharset c charset (Spec.pctDecodeRight bytes) with
      | none => simp
      | some x => rintro rfl; exact id
    · intro h
      rw [decodeCharset_of_text h]

theorem decodeParameter_no_abort {bytes charset : Bytes} {k : Abort} :
    decodeParameter c bytes charset ≠ .abort k := by
  unfold decodeParameter
  cases hk : knownCharset charset with
  | false => simp
  | true =>
    have := percentLoop_eq [] bytes
    simp only [List.length_nil, List.nil_append] at this
    simp only [Bool.not_true, Bool.false_eq_true, if_false]
    rw [this, ok_bind]
    have hd := decodeCharset_spec (c := c) (name := charset)
      (bytes := Spec.pctDecodeRight bytes)
    revert hd
    cases decodeCharset c charset (Spec.pctDecodeRight bytes) with
    | none => simp
    | some x => cases x <;> simp

theorem segmentText_unique {charset bytes t t' : Bytes} (h : Spec.SegmentText c charset bytes t)
    (h' : Spec.SegmentText c charset bytes t') : t = t' := by
  rw [← decodeParameter_iff] at h h'
  rw [h] at h'
  simpa using h'

/-! ### Segments -/

theorem takeWhile_quote {cs rest : Bytes} (h : (39 : UInt8) ∉ cs) :
    (cs ++ 39 :: rest).takeWhile (fun c => c != 39) = cs ∧
      (cs ++ 39 :: rest).dropWhile (fun c => c != 39) = 39 :: rest := by
  induction cs with
  | nil => simp
  | cons b cs ih =>
    simp only [List.mem_cons, not_or] at h
    have hb : (b != 39) = true := by simpa using fun e => h.1 e.symm
    obtain ⟨h1, h2⟩ := ih h.2
    simp [hb, h1, h2]

theorem not_mem_takeWhile_quote (l : Bytes) : (39 : UInt8) ∉ l.takeWhile (fun c => c != 39) := by
  intro h
  have := mem_takeWhile h
  simp at this

theorem firstSegment_iff {p : RawParam} {v : Bytes × Option Bytes} :
    firstSegment c p.encoded p.value = .ok v ↔ Spec.InitialText c p v.2 v.1 := by
  unfold firstSegment Spec.InitialText
  cases p.encoded with
  | false =>
    obtain ⟨a, b⟩ := v
    simp
    exact ⟨fun ⟨h1, h2⟩ => ⟨h2.symm, h1.symm⟩, fun ⟨h1, h2⟩ => ⟨h2.symm, h1.symm⟩⟩
  | true =>
    simp only [if_true, takeWhile_eq, ok_bind, Bool.true_eq_false, false_and, false_or, true_and]
    constructor
    · intro h
      obtain ⟨⟨r1, u1⟩, ht1, h⟩ := bind_eq_ok.mp h
      rw [tag_ok_iff] at ht1
      obtain ⟨⟨r2, u2⟩, ht2, h⟩ := bind_eq_ok.mp h
      dsimp only at ht2
      rw [tag_ok_iff] at ht2
      obtain ⟨t, hd, h⟩ := bind_eq_ok.mp h
      rw [decodeParameter_iff] at hd
      simp only [Outcome.ok.injEq] at h
      subst h
      refine ⟨_, _, _, ?_, not_mem_takeWhile_quote p.value, not_mem_takeWhile_quote r1, rfl, hd⟩
      have e1 := List.takeWhile_append_dropWhile (p := fun c : UInt8 => c != 39) (l := p.value)
      have e2 := List.takeWhile_append_dropWhile (p := fun c : UInt8 => c != 39) (l := r1)
      rw [ht1] at e1
      rw [ht2] at e2
      conv => lhs; rw [← e1, ← e2]
      simp
    · rintro ⟨cs, lang, bytes, hv, h1, h2, hcs, ht⟩
      have hv' : p.value = cs ++ 39 :: (lang ++ 39 :: bytes) := by simp [hv]
      obtain ⟨a1, a2⟩ := takeWhile_quote (rest := lang ++ 39 :: bytes) h1
      obtain ⟨b1, b2⟩ := takeWhile_quote (rest := bytes) h2
      rw [hv', a1, a2]
      have t1 := fun m => tag_append [39] (lang ++ 39 :: bytes) m
      have t2 := fun m => tag_append [39] bytes m
      simp only [List.cons_append, List.nil_append] at t1 t2
      simp only [t1, ok_bind, b2, t2]
      rw [show decodeParameter c bytes (lowercase cs) = .ok v.1 from decodeParameter_iff.mpr ht]
      simp only [ok_bind]
      obtain ⟨a, b⟩ := v
      simp only [Outcome.ok.injEq, Prod.mk.injEq, true_and]
      exact hcs.symm

theorem firstSegment_no_abort {e : Bool} {v : Bytes} {k : Abort} :
    firstSegment c e v ≠ .abort k := by
  unfold firstSegment
  cases e with
  | false => simp
  | true =>
    simp only [if_true, takeWhile_eq, ok_bind]
    intro h
    rcases bind_eq_abort.mp h with h | ⟨a, -, h⟩
    · rcases tag_cases (List.dropWhile (fun c => c != 39) v) (b! "'")
        "TAG ERROR: In a parameter list, a charset must be followed by a `'`." with ⟨r, -, h'⟩ | ⟨-, h'⟩
        <;> rw [h'] at h <;> simp at h
    · rcases bind_eq_abort.mp h with h | ⟨a', -, h⟩
      · rcases tag_cases (List.dropWhile (fun c => c != 39) a.1) (b! "'")
          "TAG ERROR: In a parameter list, a language must be followed by a `'`." with ⟨r, -, h'⟩ | ⟨-, h'⟩
          <;> rw [h'] at h <;> simp at h
      · rcases bind_eq_abort.mp h with h | ⟨a'', -, h⟩
        · exact decodeParameter_no_abort h
        · simp at h

theorem segmentPiece_iff {p : RawParam} {charset : Option Bytes} {t : Bytes} :
    segmentPiece c charset p.encoded p.value = .ok t ↔ Spec.FurtherText c charset p t := by
  unfold segmentPiece Spec.FurtherText
  cases p.encoded <;> cases charset <;> simp only [decodeParameter_iff, Outcome.ok.injEq]
    <;> exact eq_comm

theorem segmentPiece_no_abort {e : Bool} {charset : Option Bytes} {v : Bytes} {k : Abort} :
    segmentPiece c charset e v ≠ .abort k := by
  unfold segmentPiece
  cases e <;> cases charset <;> simp only [ne_eq, reduceCtorEq, not_false_eq_true]
  exact decodeParameter_no_abort

/-- The segments of a parameter as the code keeps them. -/
def segmentsOf (ps : List RawParam) (name : Bytes) : Segments :=
  fun k => (Spec.segment ps name k).map fun p => (p.encoded, p.value)

/-- The texts of the segments from `idx` on. -/
def Further (c : Cfg) (ps : List RawParam) (name : Bytes) (charset : Option Bytes) (idx : Nat)
    (texts : List Bytes) : Prop :=
  (∀ k (h : k < texts.length), ∃ p, Spec.segment ps name (k + idx) = some p ∧
    Spec.FurtherText c charset p texts[k]) ∧
  Spec.segment ps name (texts.length + idx) = none

theorem further_cons {ps : List RawParam} {name : Bytes} {charset : Option Bytes} {idx : Nat}
    {t : Bytes} {texts : List Bytes} :
    Further c ps name charset idx (t :: texts) ↔
      (∃ p, Spec.segment ps name idx = some p ∧ Spec.FurtherText c charset p t) ∧
      Further c ps name charset (idx + 1) texts := by
  constructor
  · rintro ⟨h1, h2⟩
    refine ⟨by have := h1 0 (by simp); rw [Nat.zero_add] at this; exact this, ⟨fun k hk => ?_, ?_⟩⟩
    · have := h1 (k + 1) (by simpa using hk)
      rw [show k + 1 + idx = k + (idx + 1) by omega] at this
      simpa using this
    · rw [show texts.length + (idx + 1) = (t :: texts).length + idx by simp; omega]
      exact h2
  · rintro ⟨h0, h1, h2⟩
    refine ⟨fun k hk => ?_, ?_⟩
    · cases k with
      | zero => rw [Nat.zero_add]; exact h0
      | succ k =>
        have := h1 k (by simpa using hk)
        rw [show k + 1 + idx = k + (idx + 1) by omega]
        simpa using this
    · rw [show (t :: texts).length + idx = texts.length + (idx + 1) by simp; omega]
      exact h2

theorem further_nil {ps : List RawParam} {name : Bytes} {charset : Option Bytes} {idx : Nat} :
    Further c ps name charset idx [] ↔ Spec.segment ps name idx = none := by
  simp [Further]

/-- Indices are `u8`. -/
def IndicesSmall (ps : List RawParam) : Prop := ∀ p ∈ ps, ∀ k, p.index = some k → k < 256

theorem segment_mem {ps : List RawParam} {name : Bytes} {k : Nat} {p : RawParam}
    (h : Spec.segment ps name k = some p) : p ∈ ps ∧ p.name = name ∧ p.index = some k := by
  have := List.mem_of_getLast? h
  rw [List.mem_filter] at this
  simpa using this

theorem segment_small {ps : List RawParam} (hs : IndicesSmall ps) {name : Bytes} {k : Nat}
    (hk : 256 ≤ k) : Spec.segment ps name k = none := by
  cases h : Spec.segment ps name k with
  | none => rfl
  | some p =>
    obtain ⟨h1, -, h2⟩ := segment_mem h
    have := hs p h1 k h2
    omega

/-- The three outcomes of the loop over the following segments.  The map it works on agrees with
the segments except at the indices already passed, which have been removed. -/
theorem segmentsLoop_spec {ps : List RawParam} (hs : IndicesSmall ps) {name : Bytes}
    {charset : Option Bytes} : ∀ (fuel idx : Nat) (values : Segments), 0 < idx → idx ≤ 256 →
    256 < fuel + idx →
    (∀ k, values k = if k < idx then none else segmentsOf ps name k) →
    (∀ v, segmentsLoop c charset fuel values (idx % 256) = .ok v →
      ∃ texts, Further c ps name charset idx texts ∧ v = texts.flatten) ∧
    (∀ e, segmentsLoop c charset fuel values (idx % 256) = .err e →
      ∀ texts, ¬ Further c ps name charset idx texts) ∧
    (∀ a, segmentsLoop c charset fuel values (idx % 256) = .abort a →
      a = .panic ∧ c.overflowChecks = true ∧
      ∀ k, idx ≤ k → k < 256 → (Spec.segment ps name k).isSome = true)
  | 0, idx, values, h0, h1, hf, _ => by omega
  | fuel + 1, idx, values, h0, h1, hf, hv => by
    unfold segmentsLoop
    by_cases hidx : idx = 256
    · subst hidx
      have : values (256 % 256) = none := by rw [hv]; simp
      simp only [this]
      refine ⟨fun v h => ?_, by simp, by simp⟩
      refine ⟨[], further_nil.mpr (segment_small hs (by omega)), ?_⟩
      simpa using h.symm
    · have hmod : idx % 256 = idx := Nat.mod_eq_of_lt (by omega)
      rw [hmod]
      have hval : values idx = segmentsOf ps name idx := by rw [hv]; simp
      rw [hval]
      unfold segmentsOf
      cases hseg : Spec.segment ps name idx with
      | none =>
        simp only [Option.map_none]
        refine ⟨fun v h => ⟨[], further_nil.mpr hseg, ?_⟩, by simp, by simp⟩
        simpa using h.symm
      | some p =>
        simp only [Option.map_some]
        cases hp : segmentPiece c charset p.encoded p.value with
        | abort k => exact (segmentPiece_no_abort hp).elim
        | err e =>
          simp only [err_bind]
          refine ⟨by simp, fun e' _ texts hF => ?_, by simp⟩
          cases texts with
          | nil => rw [further_nil, hseg] at hF; simp at hF
          | cons t texts =>
            obtain ⟨⟨p', h1, h2⟩, -⟩ := further_cons.mp hF
            rw [hseg] at h1
            cases h1
            rw [← segmentPiece_iff, hp] at h2
            simp at h2
        | ok t =>
          rw [segmentPiece_iff] at hp
          simp only [ok_bind]
          have hvals : ∀ k, (values.erase idx) k = if k < idx + 1 then none else
              segmentsOf ps name k := by
            intro k
            unfold Segments.erase
            by_cases hk : k = idx
            · simp [hk]
            · rw [if_neg hk, hv]
              by_cases hk' : k < idx
              · rw [if_pos hk', if_pos (by omega)]
              · rw [if_neg hk', if_neg (by omega)]
          obtain ⟨ih1, ih2, ih3⟩ := segmentsLoop_spec hs (charset := charset) fuel (idx + 1)
            (values.erase idx) (by omega) (by omega) (by omega) hvals
          have hnext : incrementIndex c idx = .ok ((idx + 1) % 256) ∨
              (incrementIndex c idx = .abort .panic ∧ c.overflowChecks = true ∧ idx = 255) := by
            unfold incrementIndex
            by_cases h : idx + 1 < 256
            · simp [h, Nat.mod_eq_of_lt h]
            · have : idx = 255 := by omega
              subst this
              cases c.overflowChecks <;> simp
          rcases hnext with hnext | ⟨hnext, ho, hi⟩
          · simp only [hnext, ok_bind]
            cases hloop : segmentsLoop c charset fuel (values.erase idx) ((idx + 1) % 256) with
            | ok v' =>
              simp only [ok_bind]
              obtain ⟨texts, hF, rfl⟩ := ih1 v' hloop
              refine ⟨fun v h => ⟨t :: texts, further_cons.mpr ⟨⟨p, hseg, hp⟩, hF⟩, ?_⟩, by simp,
                by simp⟩
              simpa using h.symm
            | err e =>
              simp only [err_bind]
              refine ⟨by simp, fun e' _ texts hF => ?_, by simp⟩
              cases texts with
              | nil => rw [further_nil, hseg] at hF; simp at hF
              | cons t texts => exact ih2 e hloop texts (further_cons.mp hF).2
            | abort a =>
              simp only [abort_bind]
              refine ⟨by simp, by simp, fun a' h => ?_⟩
              simp only [Outcome.abort.injEq] at h
              subst h
              obtain ⟨h1, h2, h3⟩ := ih3 a hloop
              refine ⟨h1, h2, fun k hk hk' => ?_⟩
              by_cases hke : k = idx
              · subst hke; simp [hseg]
              · exact h3 k (by omega) hk'
          · simp only [hnext, abort_bind]
            refine ⟨by simp, by simp, fun a' h => ?_⟩
            simp only [Outcome.abort.injEq] at h
            subst h
            refine ⟨rfl, ho, fun k hk hk' => ?_⟩
            have : k = idx := by omega
            subst this
            simp [hseg]

/-! ### `collect_parameters` -/

theorem lastWith_append {α : Type} (p : α → Bool) (l : List α) (a : α) :
    Spec.lastWith p (l ++ [a]) = if p a then some a else Spec.lastWith p l := by
  unfold Spec.lastWith
  rw [List.filter_append]
  by_cases h : p a = true <;> simp [h]

theorem plainParam_append (ps : List RawParam) (p : RawParam) (name : Bytes) :
    Spec.plainParam (ps ++ [p]) name =
      if p.name = name ∧ p.index = none then some p else Spec.plainParam ps name := by
  unfold Spec.plainParam
  rw [lastWith_append]
  simp

theorem segment_append (ps : List RawParam) (p : RawParam) (name : Bytes) (k : Nat) :
    Spec.segment (ps ++ [p]) name k =
      if p.name = name ∧ p.index = some k then some p else Spec.segment ps name k := by
  unfold Spec.segment
  rw [lastWith_append]
  simp

/-- What the two maps contain after the parameters `ps`. -/
structure Partitioned (ps : List RawParam) (parameters : Params)
    (complex : List (Bytes × Segments)) : Prop where
  plain : ∀ name, parameters name = (Spec.plainParam ps name).map (·.value)
  nodup : (complex.map (·.1)).Nodup
  segs : ∀ e ∈ complex, e.2 = segmentsOf ps e.1
  missing : ∀ name, name ∉ complex.map (·.1) → ∀ k, Spec.segment ps name k = none

theorem complexInsert_names {name : Bytes} {k : Nat} {v : Bool × Bytes} :
    ∀ {l : List (Bytes × Segments)} {n : Bytes},
      n ∈ (complexInsert name k v l).map (·.1) ↔ n = name ∨ n ∈ l.map (·.1)
  | [], n => by simp [complexInsert]
  | (m, s) :: l, n => by
    unfold complexInsert
    by_cases h : m = name
    · subst h; simp
    · rw [if_neg h]
      simp only [List.map_cons, List.mem_cons, complexInsert_names]
      constructor
      · rintro (h | h | h) <;> simp [h]
      · rintro (h | h | h) <;> simp [h]

theorem complexInsert_nodup {name : Bytes} {k : Nat} {v : Bool × Bytes} :
    ∀ {l : List (Bytes × Segments)}, (l.map (·.1)).Nodup →
      ((complexInsert name k v l).map (·.1)).Nodup
  | [], _ => by simp [complexInsert]
  | (m, s) :: l, h => by
    unfold complexInsert
    by_cases hm : m = name
    · subst hm; simpa using h
    · rw [if_neg hm]
      simp only [List.map_cons, List.nodup_cons] at h ⊢
      refine ⟨fun hmem => ?_, complexInsert_nodup h.2⟩
      rcases complexInsert_names.mp hmem with h' | h'
      · exact hm h'
      · exact h.1 h'

theorem complexInsert_mem {name : Bytes} {k : Nat} {v : Bool × Bytes} {e : Bytes × Segments} :
    ∀ {l : List (Bytes × Segments)}, (l.map (·.1)).Nodup → e ∈ complexInsert name k v l →
      (e.1 ≠ name ∧ e ∈ l) ∨ (e.1 = name ∧ name ∉ l.map (·.1) ∧
        e.2 = Segments.insert (fun _ => none) k v) ∨
      (e.1 = name ∧ ∃ s, (name, s) ∈ l ∧ e.2 = s.insert k v)
  | [], _, h => by
    simp [complexInsert] at h
    simp [h]
  | (m, s) :: l, hnd, h => by
    unfold complexInsert at h
    simp only [List.map_cons, List.nodup_cons] at hnd
    by_cases hm : m = name
    · subst hm
      rw [if_pos rfl] at h
      rcases List.mem_cons.mp h with rfl | h
      · exact .inr (.inr ⟨rfl, s, by simp, rfl⟩)
      · refine .inl ⟨fun he => ?_, by simp [h]⟩
        exact hnd.1 (he ▸ List.mem_map_of_mem h)
    · rw [if_neg hm] at h
      rcases List.mem_cons.mp h with rfl | h
      · exact .inl ⟨hm, by simp⟩
      · rcases complexInsert_mem hnd.2 h with ⟨h1, h2⟩ | ⟨h1, h2, h3⟩ | ⟨h1, s', h2, h3⟩
        · exact .inl ⟨h1, by simp [h2]⟩
        · refine .inr (.inl ⟨h1, ?_, h3⟩)
          simp only [List.map_cons, List.mem_cons, not_or]
          exact ⟨fun e => hm e.symm, h2⟩
        · exact .inr (.inr ⟨h1, s', by simp [h2], h3⟩)

theorem partitioned_step {ps : List RawParam} {p : RawParam} {parameters : Params}
    {complex : List (Bytes × Segments)} (h : Partitioned ps parameters complex) :
    (p.index = none → Partitioned (ps ++ [p]) (parameters.insert p.name p.value) complex) ∧
    (∀ k, p.index = some k → Partitioned (ps ++ [p]) parameters
      (complexInsert p.name k (p.encoded, p.value) complex)) := by
  constructor
  · intro hi
    refine ⟨fun name => ?_, h.nodup, fun e he => ?_, fun name hn k => ?_⟩
    · rw [plainParam_append]
      unfold Params.insert
      by_cases hn : name = p.name
      · subst hn; simp [hi]
      · rw [if_neg hn, if_neg (fun h => hn h.1.symm), h.plain]
    · rw [h.segs e he]
      funext k
      unfold segmentsOf
      rw [segment_append]
      simp [hi]
    · rw [segment_append, h.missing name hn]
      simp [hi]
  · intro k hi
    refine ⟨fun name => ?_, complexInsert_nodup h.nodup, fun e he => ?_, fun name hn k' => ?_⟩
    · rw [plainParam_append, h.plain]
      simp [hi]
    · funext k'
      unfold segmentsOf
      rw [segment_append]
      rcases complexInsert_mem h.nodup he with ⟨h1, h2⟩ | ⟨h1, h2, h3⟩ | ⟨h1, s, h2, h3⟩
      · rw [if_neg (fun h => h1 h.1.symm), h.segs e h2]; rfl
      · rw [h3, h1]
        unfold Segments.insert
        by_cases hk : k' = k
        · subst hk; simp [hi]
        · rw [if_neg hk, if_neg (by rw [hi]; simp; exact fun e => hk e.symm), h.missing _ h2]
          rfl
      · have hs := h.segs _ h2
        dsimp only at hs
        rw [h3, h1, hs]
        unfold Segments.insert
        by_cases hk : k' = k
        · subst hk; simp [hi]
        · rw [if_neg hk, if_neg (by rw [hi]; simp; exact fun e => hk e.symm)]
          rfl
    · rw [complexInsert_names, not_or] at hn
      rw [segment_append, if_neg (fun h => hn.1 h.1.symm), h.missing _ hn.2]

theorem partition_spec : ∀ (qs ps : List RawParam) (parameters : Params)
    (complex : List (Bytes × Segments)), Partitioned ps parameters complex →
    Partitioned (ps ++ qs) (partitionParameters qs (parameters, complex)).1
      (partitionParameters qs (parameters, complex)).2
  | [], ps, _, _, h => by simpa [partitionParameters] using h
  | p :: qs, ps, parameters, complex, h => by
    unfold partitionParameters
    rw [List.append_cons]
    cases hi : p.index with
    | none => exact partition_spec qs _ _ _ ((partitioned_step h).1 hi)
    | some k => exact partition_spec qs _ _ _ ((partitioned_step h).2 k hi)

theorem partition_empty (ps : List RawParam) :
    Partitioned ps (partitionParameters ps (Params.empty, [])).1
      (partitionParameters ps (Params.empty, [])).2 := by
  have := partition_spec ps [] Params.empty [] ⟨fun _ => rfl, by simp, by simp, fun _ _ _ => rfl⟩
  simpa using this

/-- All 256 possible segments of a parameter are present. -/
def AllSegments (ps : List RawParam) (name : Bytes) : Prop :=
  ∀ k, k < 256 → (Spec.segment ps name k).isSome = true

theorem collectOne_spec {ps : List RawParam} (hs : IndicesSmall ps) {parameters : Params}
    {e : Bytes × Segments} (he : e.2 = segmentsOf ps e.1)
    (hplain : parameters e.1 = (Spec.plainParam ps e.1).map (·.value)) :
    (∀ q, collectOne c parameters e = .ok q → Spec.ParamValue c ps e.1 (q e.1) ∧
      ∀ n, n ≠ e.1 → q n = parameters n) ∧
    (∀ x, collectOne c parameters e = .err x → ∀ v, ¬ Spec.ParamValue c ps e.1 v) ∧
    (∀ a, collectOne c parameters e = .abort a →
      a = .panic ∧ c.overflowChecks = true ∧ AllSegments ps e.1) := by
  unfold collectOne Spec.ParamValue
  rw [he]
  have h0 : segmentsOf ps e.1 0 = (Spec.segment ps e.1 0).map fun p => (p.encoded, p.value) := rfl
  rw [h0]
  cases hseg : Spec.segment ps e.1 0 with
  | none =>
    simp only [Option.map_none]
    refine ⟨fun q h => ?_, by simp, by simp⟩
    simp only [Outcome.ok.injEq] at h
    subst h
    exact ⟨hplain, fun _ _ => rfl⟩
  | some p =>
    simp only [Option.map_some]
    cases hf : firstSegment c p.encoded p.value with
    | abort k => exact (firstSegment_no_abort hf).elim
    | err x =>
      simp only [err_bind]
      refine ⟨by simp, fun _ _ v ⟨cs, first, hI, _⟩ => ?_, by simp⟩
      have := firstSegment_iff (v := (first, cs)).mpr hI
      rw [hf] at this
      simp at this
    | ok fv =>
      obtain ⟨first, charset⟩ := fv
      have hI := firstSegment_iff.mp hf
      simp only [ok_bind]
      have hv : ∀ k, ((segmentsOf ps e.1).erase 0) k = if k < 1 then none else
          segmentsOf ps e.1 k := by
        intro k
        unfold Segments.erase
        by_cases hk : k = 0
        · simp [hk]
        · rw [if_neg hk, if_neg (by omega)]
      obtain ⟨l1, l2, l3⟩ := segmentsLoop_spec (c := c) hs (charset := charset) 257 1 _ (by omega)
        (by omega) (by omega) hv
      simp only [Nat.reduceMod] at l1 l2 l3
      cases hl : segmentsLoop c charset 257 ((segmentsOf ps e.1).erase 0) 1 with
      | ok v =>
        simp only [ok_bind]
        obtain ⟨texts, ⟨hF1, hF2⟩, rfl⟩ := l1 v hl
        refine ⟨fun q h => ?_, by simp, by simp⟩
        simp only [Outcome.ok.injEq] at h
        subst h
        refine ⟨⟨charset, first, hI, texts, hF1, hF2, by simp [Params.insert]⟩, fun n hn => ?_⟩
        simp [Params.insert, hn]
      | err x =>
        simp only [err_bind]
        refine ⟨by simp, fun _ _ v ⟨cs, first', hI', texts, hF1, hF2, _⟩ => ?_, by simp⟩
        have := firstSegment_iff (v := (first', cs)).mpr hI'
        rw [hf] at this
        simp only [Outcome.ok.injEq, Prod.mk.injEq] at this
        obtain ⟨rfl, rfl⟩ := this
        exact l2 x hl texts ⟨hF1, hF2⟩
      | abort a =>
        simp only [abort_bind]
        refine ⟨by simp, by simp, fun a' h => ?_⟩
        simp only [Outcome.abort.injEq] at h
        subst h
        obtain ⟨h1, h2, h3⟩ := l3 a hl
        refine ⟨h1, h2, fun k hk => ?_⟩
        by_cases hk0 : k = 0
        · subst hk0; simp [hseg]
        · exact h3 k (by omega) hk

theorem collectAll_spec {ps : List RawParam} (hs : IndicesSmall ps) :
    ∀ {l : List (Bytes × Segments)} {parameters : Params}, (l.map (·.1)).Nodup →
    (∀ e ∈ l, e.2 = segmentsOf ps e.1) →
    (∀ e ∈ l, parameters e.1 = (Spec.plainParam ps e.1).map (·.value)) →
    (∀ q, collectAll c parameters l = .ok q → (∀ e ∈ l, Spec.ParamValue c ps e.1 (q e.1)) ∧
      ∀ n, n ∉ l.map (·.1) → q n = parameters n) ∧
    (∀ x, collectAll c parameters l = .err x → ∃ name, ∀ v, ¬ Spec.ParamValue c ps name v) ∧
    (∀ a, collectAll c parameters l = .abort a →
      a = .panic ∧ c.overflowChecks = true ∧ ∃ name, AllSegments ps name)
  | [], parameters, _, _, _ => by simp [collectAll]
  | e :: l, parameters, hnd, hsegs, hplain => by
    unfold collectAll
    simp only [List.map_cons, List.nodup_cons] at hnd
    obtain ⟨o1, o2, o3⟩ := collectOne_spec (c := c) hs (hsegs e (by simp)) (hplain e (by simp))
    cases ho : collectOne c parameters e with
    | abort a =>
      simp only [abort_bind]
      refine ⟨by simp, by simp, fun a' h => ?_⟩
      simp only [Outcome.abort.injEq] at h
      subst h
      obtain ⟨h1, h2, h3⟩ := o3 a ho
      exact ⟨h1, h2, _, h3⟩
    | err x =>
      simp only [err_bind]
      exact ⟨by simp, fun _ _ => ⟨e.1, o2 x ho⟩, by simp⟩
    | ok q =>
      simp only [ok_bind]
      obtain ⟨hq1, hq2⟩ := o1 q ho
      have hp' : ∀ e' ∈ l, q e'.1 = (Spec.plainParam ps e'.1).map (·.value) := by
        intro e' he'
        rw [hq2, hplain e' (by simp [he'])]
        intro heq
        exact hnd.1 (heq ▸ List.mem_map_of_mem he')
      obtain ⟨a1, a2, a3⟩ := collectAll_spec hs (parameters := q) hnd.2
        (fun e' he' => hsegs e' (by simp [he'])) hp'
      refine ⟨fun q' hq' => ?_, a2, a3⟩
      obtain ⟨b1, b2⟩ := a1 q' hq'
      refine ⟨fun e' he' => ?_, fun n hn => ?_⟩
      · rcases List.mem_cons.mp he' with rfl | he'
        · rw [b2 _ hnd.1]; exact hq1
        · exact b1 e' he'
      · simp only [List.map_cons, List.mem_cons, not_or] at hn
        rw [b2 n hn.2, hq2 n hn.1]

/-- The three outcomes of `collect_parameters`. -/
theorem collectParameters_spec {ps : List RawParam} (hs : IndicesSmall ps) :
    (∀ q, collectParameters c ps = .ok q → ∀ name, Spec.ParamValue c ps name (q name)) ∧
    (∀ x, collectParameters c ps = .err x → ∃ name, ∀ v, ¬ Spec.ParamValue c ps name v) ∧
    (∀ a, collectParameters c ps = .abort a →
      a = .panic ∧ c.overflowChecks = true ∧ ∃ name, AllSegments ps name) := by
  unfold collectParameters
  have hP := partition_empty ps
  generalize partitionParameters ps (Params.empty, []) = pc at hP ⊢
  obtain ⟨parameters, complex⟩ := pc
  simp only at hP ⊢
  have hperm := c.mapOrder_perm complex
  obtain ⟨a1, a2, a3⟩ := collectAll_spec (c := c) hs (l := c.mapOrder complex)
    (parameters := parameters)
    ((hperm.map (·.1)).nodup_iff.mpr hP.nodup)
    (fun e he => hP.segs e (hperm.mem_iff.mp he)) (fun e _ => hP.plain e.1)
  refine ⟨fun q hq name => ?_, a2, a3⟩
  obtain ⟨b1, b2⟩ := a1 q hq
  by_cases hn : name ∈ (c.mapOrder complex).map (·.1)
  · obtain ⟨e, he, rfl⟩ := List.mem_map.mp hn
    exact b1 e he
  · rw [b2 name hn]
    have hn' : name ∉ complex.map (·.1) := fun h => hn ((hperm.map (·.1)).mem_iff.mpr h)
    unfold Spec.ParamValue
    rw [hP.missing name hn' 0]
    exact hP.plain name

/-! ### Uniqueness and counting -/

theorem furtherText_unique {charset : Option Bytes} {p : RawParam} {t t' : Bytes}
    (h : Spec.FurtherText c charset p t) (h' : Spec.FurtherText c charset p t') : t = t' := by
  rw [← segmentPiece_iff] at h h'
  rw [h] at h'
  simpa using h'

theorem further_unique {ps : List RawParam} {name : Bytes} {charset : Option Bytes} :
    ∀ {texts texts' : List Bytes} {idx : Nat}, Further c ps name charset idx texts →
      Further c ps name charset idx texts' → texts = texts'
  | [], [], _, _, _ => rfl
  | [], t :: texts, idx, h, h' => by
    rw [further_nil] at h
    obtain ⟨⟨p, hp, -⟩, -⟩ := further_cons.mp h'
    simp [h] at hp
  | t :: texts, [], idx, h, h' => by
    rw [further_nil] at h'
    obtain ⟨⟨p, hp, -⟩, -⟩ := further_cons.mp h
    simp [h'] at hp
  | t :: texts, t' :: texts', idx, h, h' => by
    obtain ⟨⟨p, hp, ht⟩, h⟩ := further_cons.mp h
    obtain ⟨⟨p', hp', ht'⟩, h'⟩ := further_cons.mp h'
    rw [hp] at hp'
    cases hp'
    rw [furtherText_unique ht ht', further_unique h h']

/-- A name has at most one value. -/
theorem paramValue_unique {ps : List RawParam} {name : Bytes} {v v' : Option Bytes}
    (h : Spec.ParamValue c ps name v) (h' : Spec.ParamValue c ps name v') : v = v' := by
  unfold Spec.ParamValue at h h'
  revert h h'
  cases Spec.segment ps name 0 with
  | none => rintro rfl rfl; rfl
  | some p =>
    rintro ⟨cs, first, hI, texts, h1, h2, rfl⟩ ⟨cs', first', hI', texts', h1', h2', rfl⟩
    have e := firstSegment_iff (v := (first, cs)).mpr hI
    have e' := firstSegment_iff (v := (first', cs')).mpr hI'
    rw [e] at e'
    simp only [Outcome.ok.injEq, Prod.mk.injEq] at e'
    obtain ⟨rfl, rfl⟩ := e'
    have := further_unique (idx := 1) ⟨h1, h2⟩ ⟨h1', h2'⟩
    rw [this]

theorem le_length_of_mem : ∀ (n : Nat) (l : List Nat), (∀ k < n, k ∈ l) → n ≤ l.length
  | 0, _, _ => by omega
  | n + 1, l, h => by
    have hn := h n (by omega)
    have := le_length_of_mem n (l.erase n) fun k hk =>
      (List.mem_erase_of_ne (by omega)).mpr (h k (by omega))
    rw [List.length_erase_of_mem hn] at this
    have := List.length_pos_of_mem hn
    omega

/-- Number of parameters with an index. -/
def indexedCount (ps : List RawParam) : Nat := (ps.filterMap (·.index)).length

theorem allSegments_count {ps : List RawParam} {name : Bytes} (h : AllSegments ps name) :
    256 ≤ indexedCount ps := by
  refine le_length_of_mem 256 _ fun k hk => ?_
  obtain ⟨p, hp⟩ := Option.isSome_iff_exists.mp (h k hk)
  obtain ⟨h1, -, h2⟩ := segment_mem hp
  exact List.mem_filterMap.mpr ⟨p, h1, h2⟩

end EmailParser
