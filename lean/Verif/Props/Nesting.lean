import Verif.Spec.Nesting
import Verif.Props.Part
/-
C56, C57: reading nested multipart entities level by level ends; how much the data can grow.
-/
namespace EmailParser
open Spec

variable (c : Cfg)

/-! ### C56 -/

theorem asciiCount_append (s t : Bytes) : asciiCount (s ++ t) = asciiCount s + asciiCount t := List.countP_append

theorem asciiCount_length (s : Bytes) : asciiCount s ≤ s.length := List.countP_le_length

theorem asciiCount_cons (x : UInt8) (s : Bytes) : asciiCount (x :: s) = (if x < 128 then 1 else 0) + asciiCount s := by
  unfold asciiCount
  rw [List.countP_cons, Nat.add_comm]
  by_cases h : x < 128 <;> simp [h]

theorem ascii_small (x : UInt8) : (if x < 128 then 1 else 0) ≤ 1 := by split <;> omega

/-- Quoted-printable decoding makes no ASCII characters, and at most three bytes of one. -/
theorem qpDecode_bounds (s : Bytes) :
    asciiCount (qpDecode s) ≤ asciiCount s ∧ (qpDecode s).length ≤ 3 * s.length := by
  have r : asciiCount replacement = 0 := by decide
  have rl : replacement.length = 3 := rfl
  have n61 : (61 : UInt8) < 128 := by decide
  have n13 : (13 : UInt8) < 128 := by decide
  have n10 : (10 : UInt8) < 128 := by decide
  rw [qpDecode.eq_def]
  split
  · exact ⟨Nat.le_refl _, Nat.le_refl _⟩
  · rename_i s
    have := qpDecode_bounds s
    simp only [asciiCount_cons, List.length_cons]
    omega
  · rename_i a b s _
    have := qpDecode_bounds s
    split
    · rename_i v _
      have := ascii_small v
      simp only [asciiCount_cons, List.length_cons, n61, if_true]
      omega
    · simp only [asciiCount_cons, asciiCount_append, List.length_cons, List.length_append]
      omega
  · rename_i s _ _
    have := qpDecode_bounds s
    simp only [asciiCount_cons, List.length_cons]
    omega
  · rename_i s
    have := qpDecode_bounds s
    simp only [asciiCount_cons, List.length_cons]
    omega
  · rename_i x s _ _ _ _
    have := qpDecode_bounds s
    split <;> simp only [asciiCount_cons, asciiCount_append, List.length_cons, List.length_append] <;> omega
termination_by s.length

theorem alphabetCount_ascii (s : Bytes) : alphabetCount s ≤ asciiCount s := by
  refine List.countP_mono_left fun x _ h => ?_
  exact (by decide +kernel : ∀ x : UInt8, alphabet.contains x = true → decide (x < 128) = true) x h

/-- Decoding a body makes no ASCII characters, and at most three bytes of one. -/
theorem decodeValue_bounds {body v : Bytes} {e : ContentTransferEncoding} (h : decodeValue body e = .ok v) :
    asciiCount v ≤ asciiCount body ∧ v.length ≤ 3 * body.length := by
  cases e with
  | base64 =>
    have h1 := C31_base64_decoded_length _ _ h
    have h2 := alphabetCount_ascii body
    have h3 := asciiCount_length v
    have h4 := asciiCount_length body
    omega
  | quotedPrintable =>
    have : decodeQp body = .ok v := h
    rw [decodeQp_eq] at this
    cases this
    exact qpDecode_bounds body
  | unknown name => cases h
  | _ => cases h; omega

theorem rawEntity_bounds (hm : c.feat.mime = true) {i : Bytes} {e : RawEntity} (h : rawEntity c i = .ok e) :
    asciiCount e.value ≤ asciiCount i ∧ e.value.length ≤ 3 * i.length := by
  have hs := rawEntity_sat hm i
  rw [h] at hs
  obtain ⟨hs, body, v, ⟨head, -, hi⟩, hd, rfl⟩ := hs
  have := decodeValue_bounds hd
  have hb : asciiCount body ≤ asciiCount i ∧ body.length ≤ i.length := by
    rcases hi with ⟨-, rfl⟩ | rfl
    · exact ⟨Nat.zero_le _, Nat.zero_le _⟩
    · simp only [asciiCount_append, List.length_append]
      omega
  show asciiCount v ≤ _ ∧ v.length ≤ _
  omega

/-- What the parts have together. -/
theorem multipartParts_bounds {i b : Bytes} {parts : List Bytes} (h : multipartParts i b = .ok parts) :
    (parts.map asciiCount).sum + 4 * parts.length + 8 ≤ asciiCount i ∧
    (parts.map List.length).sum + 4 * parts.length + 8 ≤ i.length := by
  obtain ⟨pre, epi, seps, h1, h2, rfl, -⟩ := C41_parts_cover_body _ _ _ h
  have hc : 8 ≤ asciiCount (closeDelimiter b) := by
    unfold closeDelimiter dashBoundary
    simp only [asciiCount_append]
    have : asciiCount CRLF = 2 := by decide
    have : asciiCount ([45, 45] : Bytes) = 2 := by decide
    omega
  have hcl := asciiCount_length (closeDelimiter b)
  have hsep : ∀ s ∈ seps, 4 ≤ asciiCount s := by
    have e1 : asciiCount CRLF = 2 := by decide
    have e2 : asciiCount ([45, 45] : Bytes) = 2 := by decide
    intro s hs
    rcases h2 s hs with rfl | rfl <;> simp only [delimiter, dashBoundary, asciiCount_append] <;> omega
  have key : (parts.map asciiCount).sum + 4 * parts.length ≤ asciiCount (List.zipWith (· ++ ·) seps parts).flatten ∧
      (parts.map List.length).sum + 4 * parts.length ≤ (List.zipWith (· ++ ·) seps parts).flatten.length := by
    clear h h2 hc hcl
    induction parts generalizing seps with
    | nil => exact ⟨Nat.zero_le _, Nat.zero_le _⟩
    | cons p parts ih =>
      cases seps with
      | nil => cases h1
      | cons s seps =>
        have := ih seps (by simpa using h1) fun s hs => hsep s (by simp [hs])
        have h4 := hsep s (by simp)
        have h5 := asciiCount_length s
        simp only [List.zipWith_cons_cons, List.flatten_cons, asciiCount_append, List.map_cons, List.sum_cons,
          List.length_cons, List.length_append]
        omega
  simp only [asciiCount_append, List.length_append]
  omega

theorem rawEntities_bounds (hm : c.feat.mime = true) : ∀ {ps : List Bytes} {es : List RawEntity},
    rawEntities c ps = .ok es → es.length = ps.length ∧
      (es.map fun e => asciiCount e.value).sum ≤ (ps.map asciiCount).sum ∧
      (es.map fun e => e.value.length).sum ≤ 3 * (ps.map List.length).sum
  | [], es, h => by cases h; exact ⟨rfl, Nat.le_refl _, Nat.zero_le _⟩
  | p :: ps, es, h => by
    unfold rawEntities at h
    obtain ⟨e, h1, h⟩ := bind_eq_ok.1 h
    obtain ⟨es', h2, h⟩ := bind_eq_ok.1 h
    cases h
    have k1 := rawEntity_bounds c hm h1
    have k2 := rawEntities_bounds hm h2
    simp only [List.map_cons, List.sum_cons, List.length_cons]
    omega

/-- The parts of an entity have together fewer ASCII characters than the entity, and at most three times its length. -/
theorem C56_parts (hm : c.feat.mime = true) (raw : RawEntity) (subtype : Bytes) (parts : List RawEntity)
    (h : raw.parse c = .ok (.multipart subtype parts)) :
    (parts.map fun e => asciiCount e.value).sum + 4 * parts.length + 8 ≤ asciiCount raw.value ∧
    (parts.map fun e => e.value.length).sum ≤ 3 * raw.value.length := by
  unfold RawEntity.parse at h
  split at h
  · obtain ⟨es, h1, h⟩ := bind_eq_ok.1 h
    cases h
    unfold parseMultipart at h1
    split at h1
    · cases h1
    · obtain ⟨ps, h2, h3⟩ := bind_eq_ok.1 h1
      have k1 := multipartParts_bounds h2
      have k2 := rawEntities_bounds c hm h3
      omega
  · exfalso
    split at h
    · split at h
      · split at h
        · obtain ⟨_, _, h⟩ := bind_eq_ok.1 h
          cases h
        · cases h
      · cases h
    · cases h

theorem member_sum {α : Type} (f : α → Nat) {l : List α} {x : α} (h : x ∈ l) : f x ≤ (l.map f).sum := by
  induction l with
  | nil => cases h
  | cons y l ih =>
    rw [List.map_cons, List.sum_cons]
    rcases List.mem_cons.mp h with rfl | h
    · omega
    · have := ih h
      omega

/-- Reading entities, their parts, the parts of their parts and so on, ends. -/
theorem C56_well_founded (hm : c.feat.mime = true) : WellFounded (PartOf c) := by
  refine Subrelation.wf (r := InvImage (· < ·) fun e : RawEntity => asciiCount e.value) ?_ (InvImage.wf _ Nat.lt_wfRel.wf)
  rintro part whole ⟨subtype, parts, h, hp⟩
  have h1 := (C56_parts c hm _ _ _ h).1
  have h2 := member_sum (fun e => asciiCount e.value) hp
  show asciiCount part.value < asciiCount whole.value
  omega

theorem census_exists (hm : c.feat.mime = true) (raw : RawEntity) : ∃ n d, Census c raw n d := by
  induction raw using (C56_well_founded c hm).induction with
  | h raw ih =>
    by_cases hl : ∃ subtype parts, raw.parse c = .ok (.multipart subtype parts)
    · obtain ⟨subtype, parts, h⟩ := hl
      have : ∃ n d, CensusOf c parts n d := by
        have ih : ∀ part ∈ parts, ∃ n d, Census c part n d := fun part hp => ih part ⟨subtype, parts, h, hp⟩
        clear h
        induction parts with
        | nil => exact ⟨0, 0, .nil⟩
        | cons p parts ihp =>
          obtain ⟨n, d, h1⟩ := ih p (by simp)
          obtain ⟨n', d', h2⟩ := ihp fun p hp => ih p (by simp [hp])
          exact ⟨_, _, .cons h1 h2⟩
      obtain ⟨n, d, h'⟩ := this
      exact ⟨_, _, .node h h'⟩
    · exact ⟨1, 1, .leaf fun subtype parts h => hl ⟨subtype, parts, h⟩⟩

theorem census_ascii (hm : c.feat.mime = true) {raw : RawEntity} {n d : Nat} (h : Census c raw n d) :
    4 * n ≤ asciiCount raw.value + 4 ∧ 12 * d ≤ asciiCount raw.value + 12 := by
  refine Census.rec (motive_1 := fun raw n d _ => 4 * n ≤ asciiCount raw.value + 4 ∧ 12 * d ≤ asciiCount raw.value + 12)
    (motive_2 := fun raws n d _ => 4 * n ≤ (raws.map fun e => asciiCount e.value).sum + 4 * raws.length ∧
      (d = 0 ∨ (raws ≠ [] ∧ 12 * d ≤ (raws.map fun e => asciiCount e.value).sum + 12))) ?_ ?_ ?_ ?_ h
  · intro raw _
    omega
  · intro raw subtype parts n d h _ ih
    have h1 := (C56_parts c hm _ _ _ h).1
    rcases ih with ⟨h2, h3 | ⟨h3, h4⟩⟩
    · omega
    · have := List.length_pos_iff.2 h3
      omega
  · simp
  · intro raw raws n d n' d' _ _ ih1 ih2
    simp only [List.map_cons, List.sum_cons, List.length_cons]
    refine ⟨by omega, ?_⟩
    right
    refine ⟨by simp, ?_⟩
    rcases ih2 with ⟨-, h | ⟨-, h⟩⟩ <;> omega

/-- Reading all levels of an entity gives a number of entities that is bounded by its length, on a number of levels that is,
too: each part takes at least four characters, and each level at least twelve. -/
theorem C56_census (hm : c.feat.mime = true) (raw : RawEntity) :
    (∃ n d, Census c raw n d) ∧
    ∀ n d, Census c raw n d → 4 * n ≤ raw.value.length + 4 ∧ 12 * d ≤ raw.value.length + 12 := by
  refine ⟨census_exists c hm raw, fun n d h => ?_⟩
  have key := census_ascii c hm h
  have := asciiCount_length raw.value
  omega

/-- The numbers are determined by the entity. -/
theorem C56_census_unique (raw : RawEntity) (n d n' d' : Nat) (h : Census c raw n d) (h' : Census c raw n' d') :
    n = n' ∧ d = d' := by
  refine Census.rec (motive_1 := fun raw n d _ => ∀ n' d', Census c raw n' d' → n = n' ∧ d = d')
    (motive_2 := fun raws n d _ => ∀ n' d', CensusOf c raws n' d' → n = n' ∧ d = d') ?_ ?_ ?_ ?_ h n' d' h'
  · intro raw hl n' d' h'
    cases h' with
    | leaf => exact ⟨rfl, rfl⟩
    | node h => exact absurd h (hl _ _)
  · intro raw subtype parts n d h _ ih n' d' h'
    cases h' with
    | leaf hl => exact absurd h (hl _ _)
    | node h2 h3 =>
      rw [h] at h2
      cases h2
      obtain ⟨rfl, rfl⟩ := ih _ _ h3
      exact ⟨rfl, rfl⟩
  · intro n' d' h'
    cases h'
    exact ⟨rfl, rfl⟩
  · intro raw raws n d n' d' _ _ ih1 ih2 n'' d'' h'
    cases h' with
    | cons h1 h2 =>
      obtain ⟨rfl, rfl⟩ := ih1 _ _ h1
      obtain ⟨rfl, rfl⟩ := ih2 _ _ h2
      exact ⟨rfl, rfl⟩

theorem email_bounds (hc : c.feat.compiles) {i : Bytes} {e : Email} {raw : RawEntity} (h : Email.parse c i = .ok e)
    (hr : e.mimeEntity = some raw) :
    c.feat.mime = true ∧ asciiCount raw.value ≤ asciiCount i ∧ raw.value.length ≤ 3 * i.length := by
  obtain ⟨fs, b, hp, -, -, -, he⟩ := parse_ok c hc h
  cases hm : c.feat.mime with
  | false =>
    rw [he.noEntity hm] at hr
    cases hr
  | true =>
    obtain ⟨raw', h1, -, -, -, -, -, h2, h3⟩ := he.entity hm
    rw [hr] at h1
    cases h1
    refine ⟨rfl, ?_⟩
    cases b with
    | none =>
      rw [h2 rfl]
      exact ⟨Nat.zero_le _, Nat.zero_le _⟩
    | some b =>
      have := decodeValue_bounds ((decodeValue_eq _ _).trans (h3 b rfl))
      obtain ⟨head, rfl, -⟩ := C05_with_body c hc i b fs hp
      simp only [asciiCount_append, List.length_append]
      omega

/-- A message has at most one entity for every four of its bytes, on at most one level for every twelve, even if the
encodings make the data longer. -/
theorem C56_message (hc : c.feat.compiles) (i : Bytes) (e : Email) (raw : RawEntity) (h : Email.parse c i = .ok e)
    (hr : e.mimeEntity = some raw) :
    ∃ n d, Census c raw n d ∧ 4 * n ≤ i.length + 4 ∧ 12 * d ≤ i.length + 12 := by
  obtain ⟨hm, h1, -⟩ := email_bounds c hc h hr
  obtain ⟨n, d, hn⟩ := census_exists c hm raw
  have h2 := census_ascii c hm hn
  have h3 := asciiCount_length i
  exact ⟨n, d, hn, by omega, by omega⟩

/-! ### C57 -/

/-- Each level makes the data at most three times longer. -/
theorem C57_bound (hm : c.feat.mime = true) (leaf raw : RawEntity) (n : Nat) (h : Inside c leaf n raw) :
    leaf.value.length ≤ 3 ^ n * raw.value.length := by
  induction h with
  | zero => omega
  | @succ n part whole hp _ ih =>
    obtain ⟨subtype, parts, hp, hm'⟩ := hp
    have h1 := (C56_parts c hm _ _ _ hp).2
    have h2 := member_sum (fun e => e.value.length) hm'
    have : part.value.length ≤ 3 * whole.value.length := by
      omega
    calc leaf.value.length ≤ 3 ^ n * part.value.length := ih
      _ ≤ 3 ^ n * (3 * whole.value.length) := Nat.mul_le_mul_left _ this
      _ = 3 ^ (n + 1) * whole.value.length := by rw [Nat.pow_succ, Nat.mul_assoc]

/-! A text that does: the body of each level is quoted-printable, and a byte that must not occur in it is replaced by three
such bytes. -/

/-- `=` and `-` are escaped. -/
def bombEscape (s : Bytes) : Bytes :=
  s.flatMap fun x => if x = 61 then b! "=3D" else if x = 45 then b! "=2D" else [x]

/-- The headers of each level. -/
def bombHead : Bytes :=
  MailPart.headers { contentType := some ⟨b! "multipart", b! "mixed", [(b! "boundary", b! "b")]⟩
                     encoding := some .quotedPrintable } |>.flatMap MailHeader.text

def bomb (junk : Bytes) : Nat → Bytes
  | 0 => CRLF ++ junk
  | n + 1 => bombHead ++ (CRLF ++ bombEscape (joinParts (b! "b") none (bomb junk n) [] []))

/-- Bytes that must not occur are replaced. -/
def triple (s : Bytes) : Bytes := s.flatMap fun x => if x < 128 then [x] else replacement

/-- Only line breaks, printable characters and bytes that are not ASCII. -/
def clean : Bytes → Bool
  | [] => true
  | 13 :: 10 :: s => clean s
  | x :: s => (qpLiteral x || x == 61 || 128 ≤ x) && clean s

theorem clean_append {s t : Bytes} (h : clean s = true) : clean (s ++ t) = clean t := by
  induction s using clean.induct with
  | case1 => rfl
  | case2 s ih =>
    rw [clean] at h
    rw [List.cons_append, List.cons_append, clean, ih h]
  | case3 x s hne ih =>
    rw [clean.eq_3 _ _ hne, Bool.and_eq_true] at h
    rw [List.cons_append, clean.eq_3, ih h.2, h.1, Bool.true_and]
    rintro t' rfl e
    cases s with
    | nil => revert h; decide
    | cons y s =>
      cases e
      exact hne s rfl rfl

theorem clean_escape {s : Bytes} (h : clean s = true) : clean (bombEscape s) = true := by
  induction s using clean.induct with
  | case1 => rfl
  | case2 s ih =>
    rw [clean] at h
    rw [show bombEscape (13 :: 10 :: s) = 13 :: 10 :: bombEscape s from rfl, clean]
    exact ih h
  | case3 x s hne ih =>
    rw [clean.eq_3 _ _ hne, Bool.and_eq_true] at h
    show clean ((if x = 61 then b! "=3D" else if x = 45 then b! "=2D" else [x]) ++ bombEscape s) = true
    rw [clean_append, ih h.2]
    have : ∀ x : UInt8, (qpLiteral x || x == 61 || decide (128 ≤ x)) = true →
      clean (if x = 61 then b! "=3D" else if x = 45 then b! "=2D" else [x]) = true := by decide +kernel
    exact this x h.1

theorem qpDecode_bombEscape {s : Bytes} (h : clean s = true) : qpDecode (bombEscape s) = triple s := by
  induction s using clean.induct with
  | case1 => rfl
  | case2 s ih =>
    rw [clean] at h
    rw [show bombEscape (13 :: 10 :: s) = 13 :: 10 :: bombEscape s from rfl, qpDecode, ih h]
    rfl
  | case3 x s hne ih =>
    rw [clean.eq_3 _ _ hne, Bool.and_eq_true] at h
    show qpDecode ((if x = 61 then b! "=3D" else if x = 45 then b! "=2D" else [x]) ++ bombEscape s) =
      (if x < 128 then [x] else replacement) ++ triple s
    rw [← ih h.2]
    split
    · rename_i e
      subst e
      exact qpDecode_escape_eq 61 _
    · split
      · rename_i e
        subst e
        exact qpDecode_escape_eq 45 _
      · rename_i h1 h2
        have key : ∀ x : UInt8, (qpLiteral x || x == 61 || decide (128 ≤ x)) = true → x ≠ 61 →
          (qpLiteral x = true ∧ x < 128) ∨ (qpLiteral x = false ∧ ¬ x < 128 ∧ x ≠ 13) := by decide +kernel
        rcases key x h.1 h1 with ⟨k1, k2⟩ | ⟨k1, k2, k3⟩
        · rw [if_pos k2]
          exact qpDecode_literal _ k1
        · rw [if_neg k2]
          exact qpDecode_bad _ k1 h1 fun h => k3 h.1

theorem triple_append (s t : Bytes) : triple (s ++ t) = triple s ++ triple t := List.flatMap_append

theorem triple_ascii {s : Bytes} (h : s.all (· < 128) = true) : triple s = s := by
  induction s with
  | nil => rfl
  | cons x s ih =>
    simp only [List.all_cons, Bool.and_eq_true, decide_eq_true_eq] at h
    show (if x < 128 then [x] else replacement) ++ triple s = _
    rw [if_pos h.1, ih h.2]
    rfl

theorem triple_escape (s : Bytes) : triple (bombEscape s) = bombEscape (triple s) := by
  induction s with
  | nil => rfl
  | cons x s ih =>
    show triple ((if x = 61 then b! "=3D" else if x = 45 then b! "=2D" else [x]) ++ bombEscape s) =
      bombEscape ((if x < 128 then [x] else replacement) ++ triple s)
    rw [triple_append, ih, show ∀ a b, bombEscape (a ++ b) = bombEscape a ++ bombEscape b from
      fun a b => List.flatMap_append]
    have : ∀ x : UInt8, triple (if x = 61 then b! "=3D" else if x = 45 then b! "=2D" else [x]) =
      bombEscape (if x < 128 then [x] else replacement) := by decide +kernel
    rw [this]

theorem triple_join (s : Bytes) :
    triple (joinParts (b! "b") none s [] []) = joinParts (b! "b") none (triple s) [] [] := by
  simp only [joinParts, joinRest, triple_append]
  rw [triple_ascii (s := dashBoundary (b! "b")) (by decide +kernel), triple_ascii (s := CRLF) (by decide +kernel),
    triple_ascii (s := closeDelimiter (b! "b")) (by decide +kernel)]
  rfl

theorem triple_bomb (junk : Bytes) : ∀ n, triple (bomb junk n) = bomb (triple junk) n
  | 0 => triple_append _ _
  | n + 1 => by
    rw [bomb, triple_append, triple_append, triple_escape, triple_join, triple_bomb junk n,
      triple_ascii (s := bombHead) (by decide +kernel)]
    rfl

theorem clean_join {s : Bytes} (h : clean s = true) : clean (joinParts (b! "b") none s [] []) = true := by
  rw [joinParts, joinRest, clean_append (by decide +kernel), clean_append h]
  decide +kernel

theorem clean_bomb {junk : Bytes} (h : clean junk = true) : ∀ n, clean (bomb junk n) = true
  | 0 => h
  | n + 1 => by
    rw [bomb, clean_append (by decide +kernel), clean_append (by decide +kernel)]
    exact clean_escape (clean_join (clean_bomb h n))

theorem escape_no_dash (s : Bytes) : (45 : UInt8) ∉ bombEscape s := by
  unfold bombEscape
  simp only [List.mem_flatMap, not_exists, not_and]
  intro x _
  have : ∀ x : UInt8, (45 : UInt8) ∉ (if x = 61 then b! "=3D" else if x = 45 then b! "=2D" else [x]) := by
    decide +kernel
  exact this x

theorem noBoundary_head {s t : Bytes} (hs : ¬ [45, 45] <:+: CRLF ++ s) (ht : (45 : UInt8) ∉ t) :
    NoBoundaryLine (b! "b") (s ++ t) := by
  rintro ⟨u, v, e⟩
  have e : u ++ CRLF ++ ([45, 45] ++ ([98] ++ v)) = CRLF ++ s ++ t := by
    simpa [dashBoundary, List.append_assoc] using e
  rcases List.append_eq_append_iff.mp e with ⟨m, h1, h2⟩ | ⟨m, h1, h2⟩
  · match m, h1, h2 with
    | [], _, h2 => exact ht (by rw [← List.nil_append t, ← h2]; simp)
    | [x], _, h2 =>
      simp only [List.cons_append, List.nil_append, List.cons.injEq] at h2
      exact ht (by rw [← h2.2]; simp)
    | x :: y :: m, h1, h2 =>
      simp only [List.cons_append, List.nil_append, List.cons.injEq] at h2
      obtain ⟨rfl, rfl, -⟩ := h2
      exact hs ⟨u ++ CRLF, m, by rw [h1]; simp⟩
  · exact ht (by rw [h2]; simp)

theorem bomb_noBoundary {junk : Bytes} (h : (45 : UInt8) ∉ junk) : ∀ n, NoBoundaryLine (b! "b") (bomb junk n)
  | 0 => noBoundary_head (by decide +kernel) h
  | n + 1 => by
    rw [bomb, ← List.append_assoc]
    exact noBoundary_head (by decide +kernel) (escape_no_dash _)

def bombPart : MailPart where
  contentType := some ⟨b! "multipart", b! "mixed", [(b! "boundary", b! "b")]⟩
  encoding := some .quotedPrintable

theorem bombPart_valid : bombPart.Valid c := by
  intro h hh
  simp only [bombPart, MailPart.headers, Option.toList, List.map, List.nil_append, List.append_nil, List.cons_append,
    List.mem_cons, List.not_mem_nil, or_false] at hh
  rcases hh with rfl | rfl
  · refine ⟨⟨by simp, by decide +kernel, .inl (by decide +kernel)⟩, ⟨by simp, by decide +kernel⟩, ?_⟩
    simp [ValidParams, Spec.Printable]
    decide +kernel
  · simp [MailHeader.PartValid, MailHeader.Writable]

theorem bombPart_type : bombPart.entity.mimeType = .multipart ∧
    bombPart.entity.parameters (b! "boundary") = some (b! "b") := by decide +kernel

theorem bomb_zero (junk : Bytes) : rawEntity c (CRLF ++ junk) = .ok (partValue [] junk) := by
  have h : PartL c (CRLF ++ junk) [] junk := ⟨[], _, rfl, .nil, .body⟩
  exact ((C54_any_layout c _ _ _ h).1 _).mpr ⟨junk, rfl, rfl⟩

theorem bomb_succ {body : Bytes} : rawEntity c (bombHead ++ (CRLF ++ body)) =
    .ok { bombPart.entity with value := qpDecode body } := by
  have h : PartL c (bombHead ++ (CRLF ++ body)) (partHeaders bombPart) body :=
    ⟨bombHead, _, rfl, partHeaders_layout c _ (bombPart_valid c) _ (partHeaders_field bombPart), .body⟩
  refine ((C54_any_layout c _ _ _ h).1 _).mpr ⟨qpDecode body, ?_, (partValue_part _ _).symm⟩
  rw [partEncoding_part]
  rfl

theorem bomb_parse {junk : Bytes} (h : (45 : UInt8) ∉ junk) {n : Nat} {raw part : RawEntity}
    (hm : raw.mimeType = .multipart) (hb : raw.parameters (b! "boundary") = some (b! "b"))
    (hv : raw.value = joinParts (b! "b") none (bomb junk n) [] []) (hp : rawEntity c (bomb junk n) = .ok part) :
    raw.parse c = .ok (.multipart raw.subtype [part]) := by
  refine C40_parse_join c raw (b! "b") none _ [] [] (by decide) nofun ?_ (by unfold NoBoundaryLine; decide +kernel) hm hb
    hv [part] ?_
  · intro p hp
    rw [List.mem_singleton] at hp
    subst hp
    exact bomb_noBoundary h n
  · simp [hp]

/-- `triple`, `n` times. -/
def triples (junk : Bytes) : Nat → Bytes
  | 0 => junk
  | n + 1 => triples (triple junk) n

theorem bomb_reads (n : Nat) : ∀ junk : Bytes, (∀ x ∈ junk, ¬ x < 128) → ∃ raw leaf, rawEntity c (bomb junk n) = .ok raw ∧
    Inside c leaf n raw ∧ leaf.value.length = 3 ^ n * junk.length := by
  induction n with
  | zero => exact fun junk _ => ⟨_, _, bomb_zero c junk, .zero, by simp [partValue]⟩
  | succ n ih =>
    intro junk hj
    have hj2 : ∀ x ∈ triple junk, ¬ x < 128 := by
      intro x hx
      obtain ⟨y, hy, hx⟩ := List.mem_flatMap.mp hx
      rw [if_neg (hj y hy)] at hx
      have : ∀ x ∈ replacement, ¬ x < 128 := by decide +kernel
      exact this x hx
    have hlen : (triple junk).length = 3 * junk.length := by
      clear ih hj2
      induction junk with
      | nil => rfl
      | cons x junk ih =>
        have := ih fun y hy => hj y (by simp [hy])
        show ((if x < 128 then [x] else replacement) ++ triple junk).length = _
        rw [if_neg (hj x (by simp)), List.length_append, this, List.length_cons]
        show 3 + _ = _
        omega
    have hclean : clean junk = true := by
      clear ih hj2 hlen
      induction junk with
      | nil => rfl
      | cons x junk ih =>
        have hx := hj x (by simp)
        rw [clean.eq_3, ih fun y hy => hj y (by simp [hy])]
        · have : ∀ x : UInt8, ¬ x < 128 → ((qpLiteral x || x == 61 || decide (128 ≤ x)) && true) = true := by
            decide +kernel
          exact this x hx
        · rintro s rfl
          exact absurd (by decide) hx
    obtain ⟨part, leaf, h1, h2, h3⟩ := ih (triple junk) hj2
    refine ⟨_, leaf, bomb_succ c, .succ ⟨bombPart.entity.subtype, [part], ?_, by simp⟩ h2, ?_⟩
    · refine bomb_parse c (junk := triple junk) (n := n) ?_ bombPart_type.1 bombPart_type.2 ?_ h1
      · intro h
        exact hj2 _ h (by decide)
      · show qpDecode _ = _
        rw [qpDecode_bombEscape (clean_join (clean_bomb hclean n)), triple_join, triple_bomb]
    · rw [h3, hlen, Nat.pow_succ, Nat.mul_assoc]

def specials (s : Bytes) : Nat := s.countP fun x => x == 61 || x == 45

theorem escape_length (s : Bytes) : (bombEscape s).length = s.length + 2 * specials s ∧
    specials (bombEscape s) = specials s := by
  induction s with
  | nil => exact ⟨rfl, rfl⟩
  | cons x s ih =>
    have key : ∀ x : UInt8, (if x = 61 then b! "=3D" else if x = 45 then b! "=2D" else [x]).length =
        1 + 2 * specials [x] ∧
      specials (if x = 61 then b! "=3D" else if x = 45 then b! "=2D" else [x]) = specials [x] := by decide +kernel
    have happ : ∀ s t, specials (s ++ t) = specials s + specials t := fun s t => List.countP_append
    have hc : bombEscape (x :: s) =
      (if x = 61 then b! "=3D" else if x = 45 then b! "=2D" else [x]) ++ bombEscape s := rfl
    have hs : specials (x :: s) = specials [x] + specials s := happ [x] s
    rw [hc, happ, List.length_append, (key x).1, (key x).2, ih.1, ih.2, hs, List.length_cons]
    omega

theorem bomb_length {junk : Bytes} (h : ∀ x ∈ junk, ¬ x < 128) (n : Nat) :
    specials (bomb junk n) = 11 * n ∧ (bomb junk n).length ≤ junk.length + 2 + 200 * n + 11 * n * n := by
  have happ : ∀ s t, specials (s ++ t) = specials s + specials t := fun s t => List.countP_append
  induction n with
  | zero =>
    refine ⟨?_, by simp [bomb, CRLF]⟩
    rw [bomb, happ]
    have : specials junk = 0 := by
      refine List.countP_eq_zero.mpr fun x hx => ?_
      have : ∀ x : UInt8, ¬ x < 128 → ¬ (x == 61 || x == 45) = true := by decide +kernel
      exact this x (h x hx)
    rw [this]
    rfl
  | succ n ih =>
    have hj : ∀ s, specials (joinParts (b! "b") none s [] []) = 6 + specials s ∧
        (joinParts (b! "b") none s [] []).length = 14 + s.length := by
      intro s
      rw [joinParts, joinRest, happ, happ, happ, happ, List.append_nil]
      simp only [List.length_append]
      have h1 : specials (dashBoundary (b! "b")) = 2 ∧ specials CRLF = 0 ∧ specials (closeDelimiter (b! "b")) = 4 ∧
        (dashBoundary (b! "b")).length = 3 ∧ CRLF.length = 2 ∧ (closeDelimiter (b! "b")).length = 9 ∧
        specials [] = 0 := by decide +kernel
      omega
    have hh : specials bombHead = 5 ∧ bombHead.length ≤ 100 ∧ CRLF.length = 2 ∧ specials CRLF = 0 := by decide +kernel
    rw [bomb, happ, happ, List.length_append, List.length_append, (escape_length _).1, (escape_length _).2,
      (hj _).1, (hj _).2, ih.1]
    refine ⟨by omega, ?_⟩
    have : 11 * (n + 1) * (n + 1) = 11 * n * n + 22 * n + 11 := by
      simp only [Nat.mul_add, Nat.add_mul]
      omega
    omega

/-- The bound of `C57_bound` is reached: for each number `n` of levels there is a part of a length that is at most quadratic in
`n`, of which the innermost part, when all levels are read, has a body of `3 ^ n` bytes. -/
theorem C57_growth (n : Nat) : ∃ i raw leaf, i.length ≤ 3 + 200 * n + 11 * n * n ∧ rawEntity c i = .ok raw ∧
    Inside c leaf n raw ∧ leaf.value.length = 3 ^ n := by
  have hj : ∀ x ∈ [(255 : UInt8)], ¬ x < 128 := by decide +kernel
  obtain ⟨raw, leaf, h1, h2, h3⟩ := bomb_reads c n [255] hj
  exact ⟨_, raw, leaf, (bomb_length hj n).2, h1, h2, by simpa using h3⟩

/-- A message around it. -/
def bombLetter (n : Nat) : Letter where
  date := some ⟨none, ⟨1, .january, 2024⟩, ⟨⟨10, 20, 30⟩, ⟨true, 1, 0⟩⟩⟩
  «from» := some [⟨none, ⟨b! "a", b! "b"⟩⟩]
  contentType := some ⟨b! "multipart", b! "mixed", [(b! "boundary", b! "b")]⟩
  body := some (joinParts (b! "b") none (bomb [255] n) [] [])

theorem bombLetter_valid (hf : c.feat = .full) (n : Nat) : (bombLetter n).Valid c where
  headers := by
    refine fun h hh => ⟨?_, fun name hn => ?_⟩
    · simp only [bombLetter, Letter.headers, Option.toList, List.map, List.nil_append, List.cons_append, List.append_nil,
        List.mem_cons, List.not_mem_nil, or_false, if_true] at hh
      rcases hh with rfl | rfl | rfl
      · simp [MailHeader.Writable, InRange]
      · simp [MailHeader.Writable, ValidMailbox, ValidAddress, Spec.Printable]
        decide +kernel
      · refine ⟨⟨by simp, by decide +kernel, .inl (by decide +kernel)⟩, ⟨by simp, by decide +kernel⟩, ?_⟩
        simp [ValidParams, Spec.Printable]
        decide +kernel
    · rw [hf]
      simp only [bombLetter, Letter.headers, Option.toList, List.map, List.nil_append, List.cons_append, List.append_nil,
        List.mem_cons, List.not_mem_nil, or_false, if_true] at hh
      rcases hh with rfl | rfl | rfl <;> cases hn <;> simp [Recognized, Features.full, Features.default]
  trace := .inl rfl
  traces := by simp [bombLetter]
  separated := trivial
  others := by simp [bombLetter]
  date := by simp [bombLetter]
  «from» := by simp [bombLetter]
  sender := by simp [bombLetter]
  body := by simp [hf, Features.full]

/-- The same for whole messages: reading all levels of a message can take exponential space. -/
theorem C57_message (hf : c.feat = .full) (n : Nat) : ∃ i e raw leaf, i.length ≤ 200 + 200 * n + 11 * n * n ∧
    Email.parse c i = .ok e ∧ e.mimeEntity = some raw ∧ Inside c leaf (n + 1) raw ∧ leaf.value.length = 3 ^ n := by
  have hj : ∀ x ∈ [(255 : UInt8)], ¬ x < 128 := by decide +kernel
  obtain ⟨part, leaf, h1, h2, h3⟩ := bomb_reads c n [255] hj
  have hc : c.feat.compiles := by
    rw [hf]
    exact ⟨fun _ => rfl, fun _ => rfl⟩
  refine ⟨_, _, _, leaf, ?_, C51_round_trip c hc _ (bombLetter_valid c hf n), by rw [hf]; rfl,
    .succ ⟨_, [part], bomb_parse c (junk := [255]) (n := n) (by decide) ?_ ?_ ?_ h1, by simp⟩ h2, by simpa using h3⟩
  · have hb := (bomb_length hj n).2
    have h1 : (bombLetter n).text = (bombLetter n).headers.flatMap MailHeader.text ++ (CRLF ++
      ((dashBoundary (b! "b") ++ CRLF) ++ (bomb [255] n ++ (closeDelimiter (b! "b") ++ [])))) := rfl
    have h2 : (((bombLetter 0).headers.flatMap MailHeader.text).length ≤ 120 ∧ CRLF.length = 2 ∧
      (dashBoundary (b! "b")).length = 3 ∧ (closeDelimiter (b! "b")).length = 9) := by decide +kernel
    have h3 : (bombLetter n).headers = (bombLetter 0).headers := rfl
    rw [h1, h3]
    simp only [List.length_append, List.length_cons, List.length_nil] at hb ⊢
    omega
  · exact bombPart_type.1
  · exact bombPart_type.2
  · rfl

/-! ### Examples -/

def isMultipart : Outcome Entity → Bool
  | .ok (.multipart _ _) => true
  | _ => false

theorem census_leaf {raw : RawEntity} (h : isMultipart (raw.parse c) = false) : Census c raw 1 1 :=
  .leaf fun st ps hp => by
    rw [hp] at h
    cases h

theorem census_one {t : MailTree} {raw : RawEntity} (h : Reads c raw t)
    (hl : ∃ p, t = .leaf p ∧ isMultipart (p.entity.parse c) = false) : Census c raw 1 1 := by
  obtain ⟨p, rfl, hl⟩ := hl
  cases h
  exact census_leaf c hl

theorem census_two {part : MailPart} {boundary : Bytes} {preamble : Option Bytes} {first second : MailTree}
    {epilogue : Bytes} {raw : RawEntity} (h : Reads c raw (.node part boundary preamble first [second] epilogue))
    {n d n' d' : Nat} (h1 : ∀ raw, Reads c raw first → Census c raw n d)
    (h2 : ∀ raw, Reads c raw second → Census c raw n' d') : Census c raw (n + n' + 1) (max d d' + 1) := by
  cases h with
  | @node _ _ _ _ _ _ _ e es _ g1 g2 g3 g4 =>
    obtain ⟨e2, rfl⟩ := List.length_eq_one_iff.mp g3
    have h3 := h2 _ (g4 _ (List.mem_singleton_self _))
    have := Census.node g1 (.cons (h1 _ g2) (.cons h3 .nil))
    rwa [Nat.add_zero, Nat.max_zero] at this

/-- Two parts, the second with two parts of its own. -/
example : Census (Cfg.concrete .full) exampleTree.part.entity 5 3 :=
  census_two _ (tree_reads (Cfg.concrete .full) exampleTree_valid)
    (fun _ h => census_one _ h ⟨_, rfl, by decide +kernel⟩) fun _ h =>
    census_two _ h (fun _ h => census_one _ h ⟨_, rfl, by decide +kernel⟩)
      fun _ h => census_one _ h ⟨_, rfl, by decide +kernel⟩

example : bomb [255] 2 = b! "Content-Type: multipart/mixed; boundary=\"b\"\r\nContent-Transfer-Encoding: quoted-printable\r\n\r\n=2D=2Db\r\nContent=2DType: multipart/mixed; boundary=3D\"b\"\r\nContent=2DTransfer=2DEncoding: quoted=2Dprintable\r\n\r\n=3D2D=3D2Db\r\n\r\n" ++ [255] ++ b! "\r\n=3D2D=3D2Db=3D2D=3D2D\r\n\r\n=2D=2Db=2D=2D\r\n" := by
  decide +kernel

/-- Ten levels: less than 3000 bytes become more than 59000. -/
example : (bomb [255] 10).length < 3000 ∧ 3 ^ 10 = 59049 := by decide +kernel

end EmailParser
