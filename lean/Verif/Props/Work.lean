import Verif.Spec.Work
import Verif.Props.Nesting
import Verif.Props.TimedEntity
import Verif.Proofs.Timed.Passes
/-
C69: how long reading all levels of a message takes.  If decoding does not make the multipart entities longer, at most
the cube of its length; with quoted-printable data that does, exponentially long.
-/
namespace EmailParser
open Spec

variable {c : Cfg}

/-! ### The number of steps -/

theorem work_exists (hm : c.feat.mime = true) (raw : RawEntity) : ∃ t, Work c raw t := by
  induction raw using (C56_well_founded c hm).induction with
  | h raw ih =>
    by_cases hl : ∃ subtype parts, raw.parse c = .ok (.multipart subtype parts)
    · obtain ⟨subtype, parts, h⟩ := hl
      have : ∃ t, WorkOf c parts t := by
        have ih : ∀ part ∈ parts, ∃ t, Work c part t := fun part hp => ih part ⟨subtype, parts, h, hp⟩
        clear h
        induction parts with
        | nil => exact ⟨0, .nil⟩
        | cons p parts ihp =>
          obtain ⟨t, h1⟩ := ih p (by simp)
          obtain ⟨t', h2⟩ := ihp fun p hp => ih p (by simp [hp])
          exact ⟨_, .cons h1 h2⟩
      obtain ⟨t, h'⟩ := this
      exact ⟨_, .node h h'⟩
    · exact ⟨_, .leaf fun subtype parts h => hl ⟨subtype, parts, h⟩⟩

theorem work_unique (raw : RawEntity) (t t' : Nat) (h : Work c raw t) (h' : Work c raw t') : t = t' := by
  refine Work.rec (motive_1 := fun raw t _ => ∀ t', Work c raw t' → t = t')
    (motive_2 := fun raws t _ => ∀ t', WorkOf c raws t' → t = t') ?_ ?_ ?_ ?_ h t' h'
  · intro raw hl t' h'
    cases h' with
    | leaf => rfl
    | node h => exact absurd h (hl _ _)
  · intro raw subtype parts t h _ ih t' h'
    cases h' with
    | leaf hl => exact absurd h (hl _ _)
    | node h2 hw =>
      rw [h] at h2
      cases h2
      rw [ih _ hw]
  · intro t' h'
    cases h'
    rfl
  · intro raw raws t t' _ _ ih1 ih2 t'' h'
    cases h' with
    | cons h1 h2 => rw [ih1 _ h1, ih2 _ h2]

/-- Reading all levels of an entity takes a certain number of steps. -/
theorem C69_defined (hm : c.feat.mime = true) (raw : RawEntity) : ∃ t, Work c raw t ∧ ∀ t', Work c raw t' → t' = t := by
  obtain ⟨t, h⟩ := work_exists hm raw
  exact ⟨t, h, fun t' h' => work_unique raw t' t h' h⟩

/-! ### At most -/

/-- `1 + a² + a⁴ + …`, with `d` terms. -/
def levels (a : Nat) : Nat → Nat
  | 0 => 0
  | d + 1 => 1 + a * a * levels a d

theorem levels_mono (a : Nat) {d d' : Nat} (h : d ≤ d') : levels a d ≤ levels a d' := by
  induction d generalizing d' with
  | zero => exact Nat.zero_le _
  | succ d ih =>
    cases d' with
    | zero => omega
    | succ d' =>
      have := Nat.mul_le_mul_left (a * a) (ih (show d ≤ d' by omega))
      simp only [levels]
      omega

theorem levels_one (d : Nat) : levels 1 d = d := by
  induction d with
  | zero => rfl
  | succ d ih => simp only [levels, ih]; omega

theorem levels_three (d : Nat) : 8 * levels 3 d + 1 = 9 ^ d := by
  induction d with
  | zero => rfl
  | succ d ih =>
    rw [Nat.pow_succ, ← ih]
    simp only [levels]
    omega

theorem square_small (l : Nat) : (l + 1) * (l + 1) ≤ 4 * (l * l) + 1 := by
  cases l with
  | zero => decide
  | succ l =>
    simp only [Nat.add_mul, Nat.mul_add]
    omega

theorem not_multipart {raw : RawEntity} (h : raw.mimeType ≠ .multipart) : (Timed.entity c raw).cost = 0 ∧
    ∀ subtype parts, raw.parse c ≠ .ok (.multipart subtype parts) := by
  constructor
  · unfold Timed.entity
    rw [if_neg h]
    split
    · split
      · split
        · rw [Timed.bind_cost_zero]
          · rfl
          · intro a
            rfl
        · rfl
      · rfl
    · rfl
  · intro subtype parts hp
    unfold RawEntity.parse at hp
    rw [if_neg h] at hp
    split at hp
    · split at hp
      · split at hp
        · obtain ⟨_, _, hp⟩ := bind_eq_ok.1 hp
          cases hp
        · cases hp
      · cases hp
    · cases hp

theorem work_not_multipart {raw : RawEntity} (h : raw.mimeType ≠ .multipart) {t : Nat} (hw : Work c raw t) : t = 0 := by
  obtain ⟨h1, h2⟩ := not_multipart (c := c) h
  cases hw with
  | leaf => exact h1
  | node hp => exact absurd hp (h2 _ _)

theorem multipartLength_cons (raw : RawEntity) (raws : List RawEntity) : multipartLength (raw :: raws) =
    (if raw.mimeType = .multipart then raw.value.length else 0) + multipartLength raws := by
  unfold multipartLength
  by_cases h : raw.mimeType = .multipart <;> simp [h]

theorem work_bound (a : Nat) {raw : RawEntity} {n d : Nat} (h : Census c raw n d) : Grows c a raw → ∀ t, Work c raw t →
    t ≤ 20000000 * (levels a d * (raw.value.length * raw.value.length)) + 5000000 * n := by
  refine Census.rec
    (motive_1 := fun raw n d _ => Grows c a raw → ∀ t, Work c raw t →
      t ≤ 20000000 * (levels a d * (raw.value.length * raw.value.length)) + 5000000 * n)
    (motive_2 := fun raws n d _ => (∀ raw ∈ raws, Grows c a raw) → ∀ t, WorkOf c raws t →
      t ≤ 20000000 * (levels a d * (multipartLength raws * multipartLength raws)) + 5000000 * n) ?_ ?_ ?_ ?_ h
  · intro raw hl _ t hw
    cases hw with
    | node h => exact absurd h (hl _ _)
    | leaf =>
      have h1 := C65_quadratic c raw
      have h2 := square_small raw.value.length
      have h3 : levels a 1 = 1 := by simp [levels]
      rw [h3]
      omega
  · intro raw subtype parts n d h _ ih hg t hw
    cases hw with
    | leaf hl => exact absurd h (hl _ _)
    | node hp hw =>
      rw [h] at hp
      cases hp
      have h1 := C65_quadratic c raw
      have h2 := square_small raw.value.length
      have h3 := ih (fun part hp k whole hi => hg (k + 1) whole (.succ ⟨_, _, h, hp⟩ hi)) _ hw
      have h4 := hg 0 raw .zero _ _ h
      have h5 := Nat.mul_le_mul_left (levels a d) (Nat.mul_le_mul h4 h4)
      have h6 : levels a (d + 1) * (raw.value.length * raw.value.length) = raw.value.length * raw.value.length +
          levels a d * (a * raw.value.length * (a * raw.value.length)) := by
        simp only [levels, Nat.add_mul, Nat.one_mul]
        congr 1
        ac_rfl
      rw [h6]
      omega
  · intro _ t hw
    cases hw
    exact Nat.zero_le _
  · intro raw raws n d n' d' _ _ ih1 ih2 hg t hw
    cases hw with
    | @cons _ _ t1 t2 hw1 hw2 =>
      have h1 := ih1 (hg raw (by simp)) _ hw1
      have h2 := ih2 (fun r hr => hg r (by simp [hr])) _ hw2
      rw [multipartLength_cons]
      generalize multipartLength raws = m at h2 ⊢
      have k2 := Nat.mul_le_mul_right (m * m) (levels_mono a (Nat.le_max_right d d'))
      by_cases ht : raw.mimeType = .multipart
      · rw [if_pos ht]
        generalize raw.value.length = l at h1 ⊢
        have k1 := Nat.mul_le_mul_right (l * l) (levels_mono a (Nat.le_max_left d d'))
        have k3 : levels a (max d d') * (l * l) + levels a (max d d') * (m * m) ≤
            levels a (max d d') * ((l + m) * (l + m)) := by
          rw [← Nat.mul_add]
          apply Nat.mul_le_mul_left
          simp only [Nat.add_mul, Nat.mul_add]
          omega
        omega
      · rw [if_neg ht, Nat.zero_add, work_not_multipart ht hw1]
        omega

/-- If decoding does not make the multipart entities longer, reading all `d` levels of an entity takes a number of steps at
most proportional to `d` times the square of its length. -/
theorem C69_levels (hm : c.feat.mime = true) (raw : RawEntity) (hg : Grows c 1 raw) (t n d : Nat) (hw : Work c raw t)
    (hd : Census c raw n d) : t ≤ 25000000 * (d * ((raw.value.length + 1) * (raw.value.length + 1))) := by
  have h1 := work_bound 1 hd hg t hw
  have h2 := (C56_census c hm raw).2 n d hd
  have h3 : 1 ≤ d := by cases hd <;> omega
  rw [levels_one] at h1
  generalize raw.value.length = l at h1 h2 ⊢
  have h4 := Nat.mul_le_mul h3 (Nat.le_refl (2 * l + 1))
  have h5 : d * ((l + 1) * (l + 1)) = d * (l * l) + d * (2 * l + 1) := by
    rw [← Nat.mul_add]
    congr 1
    simp only [Nat.add_mul, Nat.mul_add]
    omega
  omega

/-- So it takes at most the cube of the length of the message. -/
theorem C69_cubic (hc : c.feat.compiles) (i : Bytes) (e : Email) (raw : RawEntity) (h : Email.parse c i = .ok e)
    (hr : e.mimeEntity = some raw) (hg : Grows c 1 raw) (t : Nat) (hw : Work c raw t) :
    t ≤ 225000000 * ((i.length + 1) * ((i.length + 1) * (i.length + 1))) := by
  obtain ⟨hm, -, h1⟩ := email_bounds c hc h hr
  obtain ⟨n, d, hd, -, h2⟩ := C56_message c hc i e raw h hr
  have h3 := C69_levels hm raw hg t n d hw hd
  have h4 : raw.value.length + 1 ≤ 3 * (i.length + 1) := by omega
  have h5 : d ≤ i.length + 1 := by omega
  have h6 := Nat.mul_le_mul h5 (Nat.mul_le_mul h4 h4)
  have h7 : (i.length + 1) * (3 * (i.length + 1) * (3 * (i.length + 1))) =
      9 * ((i.length + 1) * ((i.length + 1) * (i.length + 1))) := by
    generalize i.length + 1 = x
    rw [show 3 * x * (3 * x) = 9 * (x * x) by rw [Nat.mul_mul_mul_comm], Nat.mul_left_comm]
  omega

theorem grows_three (hm : c.feat.mime = true) (raw : RawEntity) : Grows c 3 raw := by
  intro n whole _ subtype parts h
  refine Nat.le_trans ?_ (C56_parts c hm _ _ _ h).2
  clear h
  induction parts with
  | nil => exact Nat.zero_le _
  | cons part parts ih =>
    rw [multipartLength_cons, List.map_cons, List.sum_cons]
    split <;> omega

/-- Whatever the encodings, each level makes it at most nine times longer. -/
theorem C69_bound (hm : c.feat.mime = true) (raw : RawEntity) (t n d : Nat) (hw : Work c raw t)
    (hd : Census c raw n d) : t ≤ 25000000 * (9 ^ d * ((raw.value.length + 1) * (raw.value.length + 1))) := by
  have h1 := work_bound 3 hd (grows_three hm raw) t hw
  have h2 := (C56_census c hm raw).2 n d hd
  have h3 := levels_three d
  generalize raw.value.length = l at h1 h2 ⊢
  have h4 := Nat.mul_le_mul_right (l * l) (show levels 3 d ≤ 9 ^ d by omega)
  have h5 := Nat.mul_le_mul (show 1 ≤ 9 ^ d by omega) (Nat.le_refl (2 * l + 1))
  have h6 : 9 ^ d * ((l + 1) * (l + 1)) = 9 ^ d * (l * l) + 9 ^ d * (2 * l + 1) := by
    rw [← Nat.mul_add]
    congr 1
    simp only [Nat.add_mul, Nat.mul_add]
    omega
  omega

/-! ### When decoding makes a part longer -/

theorem qpDecode_short (s : Bytes) (h : wellQuoted s = true) : (qpDecode s).length ≤ s.length := by
  induction s using wellQuoted.induct with
  | case1 => exact Nat.le_refl _
  | case2 s ih =>
    have := ih h
    simp only [qpDecode, List.length_cons]
    omega
  | case3 a b s hn ih =>
    rw [wellQuoted.eq_3 _ _ _ hn, Bool.and_eq_true] at h
    have := ih h.2
    rw [qpDecode.eq_3 _ _ _ hn]
    cases hx : hexByte? a b with
    | none => rw [hx] at h; cases h.1
    | some v =>
      simp only [List.length_cons]
      omega
  | case4 s h1 h2 => rw [wellQuoted.eq_4 _ h1 h2] at h; cases h
  | case5 s ih =>
    have := ih h
    simp only [qpDecode, List.length_cons]
    omega
  | case6 b s h1 h2 h3 h4 ih =>
    rw [wellQuoted.eq_6 _ _ h1 h2 h3 h4, Bool.and_eq_true] at h
    have := ih h.2
    rw [qpDecode.eq_6 _ _ h1 h2 h3 h4, if_pos h.1]
    simp only [List.length_cons]
    omega

/-- Only data that is not well-formed quoted-printable becomes longer by decoding. -/
theorem C69_longer (hm : c.feat.mime = true) (i : Bytes) (r : RawEntity) (h : rawEntity c i = .ok r)
    (hl : i.length < r.value.length) :
    ∃ body, body <:+ i ∧ wellQuoted body = false ∧ r.value = qpDecode body := by
  obtain ⟨hs, body, v, ⟨head, -, hi⟩, hd, rfl⟩ := (rawEntity_sat hm i).of_ok h
  have hb : body <:+ i := by
    rcases hi with ⟨-, rfl⟩ | rfl
    · exact List.nil_suffix
    · exact ⟨head ++ CRLF, by simp⟩
  have hlen := hb.length_le
  have hv : i.length < v.length := hl
  revert hd
  generalize ((hs.foldl EntityHeaders.add {}).encoding.getD .sevenBit) = e
  intro hd
  cases e with
  | base64 =>
    have h1 := C31_base64_decoded_length _ _ hd
    have h2 := alphabetCount_ascii body
    have h4 := asciiCount_length body
    omega
  | quotedPrintable =>
    have hq : decodeQp body = .ok v := hd
    rw [decodeQp_eq] at hq
    cases hq
    refine ⟨body, hb, ?_, rfl⟩
    cases hw : wellQuoted body with
    | false => rfl
    | true =>
      have := qpDecode_short body hw
      omega
  | unknown name => cases hd
  | _ => cases hd; omega

theorem calm_parts {ps : List Bytes} {es : List RawEntity} (h : rawEntities c ps = .ok es)
    (hc : ∀ text ∈ ps, ∀ part, rawEntity c text = .ok part → part.mimeType = .multipart →
      part.value.length ≤ text.length) : multipartLength es ≤ (ps.map List.length).sum := by
  induction ps generalizing es with
  | nil => cases h; exact Nat.zero_le _
  | cons p ps ih =>
    unfold rawEntities at h
    obtain ⟨e, h1, h⟩ := bind_eq_ok.1 h
    obtain ⟨es', h2, h⟩ := bind_eq_ok.1 h
    cases h
    have h3 := ih h2 fun text ht => hc text (by simp [ht])
    rw [multipartLength_cons, List.map_cons, List.sum_cons]
    split
    · rename_i ht
      have := hc p (by simp) e h1 ht
      omega
    · omega

theorem infix_zip {α : Type} (l m : List (List α)) (hl : l.length = m.length) :
    ∀ x ∈ m, x <:+: (List.zipWith (· ++ ·) l m).flatten := by
  induction m generalizing l with
  | nil => nofun
  | cons y m ih =>
    cases l with
    | nil => cases hl
    | cons z l =>
      intro x hx
      rw [List.zipWith_cons_cons, List.flatten_cons]
      rcases List.mem_cons.1 hx with rfl | hx
      · exact ⟨z, _, rfl⟩
      · exact (ih l (by simpa using hl) x hx).trans (List.suffix_append _ _).isInfix

/-- The condition of `C69_levels` and `C69_cubic` holds if no multipart part becomes longer by decoding; by `C69_longer`, that
needs data that is not well-formed. -/
theorem C69_calm (raw : RawEntity) (h : Calm c raw) : Grows c 1 raw := by
  intro n whole hi subtype parts hp
  by_cases ht : whole.mimeType = .multipart
  · unfold RawEntity.parse at hp
    rw [if_pos ht] at hp
    obtain ⟨es, h1, hp⟩ := bind_eq_ok.1 hp
    cases hp
    unfold parseMultipart at h1
    split at h1
    · cases h1
    · rename_i b hb
      obtain ⟨ps, h2, h3⟩ := bind_eq_ok.1 h1
      have k1 := (multipartParts_bounds h2).2
      have k2 := calm_parts h3 fun text htx part => h n whole hi text part (by
        obtain ⟨pre, epi, seps, e1, e2, e3, -⟩ := C41_parts_cover_body _ _ _ h2
        rw [e3]
        obtain ⟨u, v, e⟩ := infix_zip seps ps e1 text htx
        exact ⟨pre ++ u, v ++ (closeDelimiter b ++ epi), by rw [← e]; simp only [List.append_assoc]⟩)
      omega
  · exact absurd hp ((not_multipart ht).2 _ _)

/-! ### At least -/

theorem workOf_mem {parts : List RawEntity} {part : RawEntity} (hp : part ∈ parts) {t : Nat} (hw : WorkOf c parts t) :
    ∃ t', Work c part t' ∧ t' ≤ t := by
  induction parts generalizing t with
  | nil => cases hp
  | cons p parts ih =>
    cases hw with
    | cons h1 h2 =>
      rcases List.mem_cons.1 hp with rfl | hp
      · exact ⟨_, h1, by omega⟩
      · obtain ⟨t', h3, h4⟩ := ih hp h2
        exact ⟨t', h3, by omega⟩

theorem level_paid (hm : c.feat.mime = true) {raw : RawEntity} {subtype : Bytes} {parts : List RawEntity}
    (h : raw.parse c = .ok (.multipart subtype parts)) :
    (parts.map fun e => e.value.length).sum ≤ 3 * (Timed.entity c raw).cost := by
  by_cases ht : raw.mimeType = .multipart
  · unfold RawEntity.parse at h
    rw [if_pos ht] at h
    obtain ⟨es, h1, h⟩ := bind_eq_ok.1 h
    cases h
    unfold parseMultipart at h1
    split at h1
    · cases h1
    · rename_i b hb
      obtain ⟨ps, h2, h3⟩ := bind_eq_ok.1 h1
      have k1 := Timed.entity_passes (c := c) ht hb h2
      have k2 := rawEntities_bounds c hm h3
      omega
  · exact absurd h ((not_multipart ht).2 _ _)

/-- Every byte of every part is paid for, also after decoding. -/
theorem C69_paid (hm : c.feat.mime = true) (leaf raw : RawEntity) (n t : Nat) (h : Inside c leaf (n + 1) raw)
    (hw : Work c raw t) : leaf.value.length ≤ 3 * t := by
  generalize hk : n + 1 = k at h
  induction h generalizing n t with
  | zero => cases hk
  | @succ k part whole hp hi ih =>
    obtain ⟨subtype, parts, h, hp⟩ := hp
    cases hw with
    | leaf hl => exact absurd h (hl _ _)
    | node h2 hw =>
      rw [h] at h2
      cases h2
      cases k with
      | zero =>
        cases hi
        have h1 := level_paid hm h
        have h2 := member_sum (fun e : RawEntity => e.value.length) hp
        omega
      | succ k =>
        obtain ⟨t', h3, h4⟩ := workOf_mem hp hw
        have := ih k t' h3 rfl
        omega

/-- Reading all levels of a message of a length quadratic in `n` can take `3 ^ n` steps. -/
theorem C69_exponential (hf : c.feat = .full) (n : Nat) : ∃ i e raw, i.length ≤ 200 + 200 * n + 11 * n * n ∧
    Email.parse c i = .ok e ∧ e.mimeEntity = some raw ∧ ∀ t, Work c raw t → 3 ^ n ≤ 3 * t := by
  obtain ⟨i, e, raw, leaf, h1, h2, h3, h4, h5⟩ := C57_message c hf n
  refine ⟨i, e, raw, h1, h2, h3, fun t hw => ?_⟩
  rw [← h5]
  exact C69_paid (by rw [hf]; rfl) leaf raw n t h4 hw

/-! ### Examples -/

theorem grows_leaf {a : Nat} {raw : RawEntity} (h : isMultipart (raw.parse c) = false) : Grows c a raw := by
  intro n whole hi subtype parts hp
  cases hi with
  | zero => rw [hp] at h; cases h
  | succ hpo => obtain ⟨st, ps, hp', -⟩ := hpo; rw [hp'] at h; cases h

theorem grows_node {a : Nat} {raw : RawEntity} {subtype : Bytes} {parts : List RawEntity}
    (h : raw.parse c = .ok (.multipart subtype parts)) (hl : multipartLength parts ≤ a * raw.value.length)
    (hp : ∀ e ∈ parts, Grows c a e) : Grows c a raw := by
  intro n whole hi st ps hps
  cases hi with
  | zero => rw [h] at hps; cases hps; exact hl
  | succ hpo hi =>
    obtain ⟨st', ps', hp', hm⟩ := hpo
    rw [h] at hp'
    cases hp'
    exact hp _ hm _ _ hi _ _ hps

theorem reads_entity {t : MailTree} {raw : RawEntity} (h : Reads c raw t) : raw = t.part.entity := by
  cases h with
  | leaf => rfl
  | node h => exact h

theorem grows_two {a : Nat} {part : MailPart} {boundary : Bytes} {preamble : Option Bytes} {first second : MailTree}
    {epilogue : Bytes} {raw : RawEntity} (h : Reads c raw (.node part boundary preamble first [second] epilogue))
    (hl : multipartLength [first.part.entity, second.part.entity] ≤
      a * (MailTree.node part boundary preamble first [second] epilogue).part.entity.value.length)
    (h1 : ∀ raw, Reads c raw first → Grows c a raw) (h2 : ∀ raw, Reads c raw second → Grows c a raw) :
    Grows c a raw := by
  cases h with
  | @node _ _ _ _ _ _ _ e es g0 g1 g2 g3 g4 =>
    obtain ⟨e2, rfl⟩ := List.length_eq_one_iff.mp g3
    have h3 : Reads c e2 second := g4 _ (List.mem_singleton_self _)
    refine grows_node g1 ?_ ?_
    · rw [g0, reads_entity g2, reads_entity h3]
      exact hl
    · intro x hx
      simp only [List.mem_cons, List.not_mem_nil, or_false] at hx
      rcases hx with rfl | rfl
      · exact h1 _ g2
      · exact h2 _ h3

/-- Two parts, the second, in base64, with two parts of its own. -/
theorem exampleTree_grows : Grows (Cfg.concrete .full) 1 exampleTree.part.entity :=
  grows_two (tree_reads (Cfg.concrete .full) exampleTree_valid) (by decide +kernel)
    (fun raw h => grows_leaf (by rw [reads_entity h]; decide +kernel)) fun _ h =>
    grows_two h (by decide +kernel)
      (fun raw h => grows_leaf (by rw [reads_entity h]; decide +kernel))
      fun raw h => grows_leaf (by rw [reads_entity h]; decide +kernel)

example : ∃ t, Work (Cfg.concrete .full) exampleTree.part.entity t :=
  (C69_defined rfl _).imp fun _ h => h.1

def infixes (v : Bytes) : List Bytes :=
  (List.range (v.length + 1)).flatMap fun k => (List.range (v.length + 1)).map fun m => (v.drop k).take m

def calmHere (c : Cfg) (v : Bytes) : Bool := (infixes v).all fun text =>
  match rawEntity c text with
  | .ok part => part.mimeType != .multipart || decide (part.value.length ≤ text.length)
  | _ => true

def calmParts (c : Cfg) : Outcome Entity → Bool
  | .ok (.multipart _ parts) => parts.all fun e => calmHere c e.value && !isMultipart (e.parse c)
  | _ => true

theorem calmHere_sound {c : Cfg} {v : Bytes} (h : calmHere c v = true) (text : Bytes) (part : RawEntity)
    (ht : text <:+: v) (hp : rawEntity c text = .ok part) (hm : part.mimeType = .multipart) :
    part.value.length ≤ text.length := by
  have hi : text ∈ infixes v := by
    obtain ⟨u, w, rfl⟩ := ht
    refine List.mem_flatMap.mpr ⟨u.length, by simp; omega, List.mem_map.mpr ⟨text.length, by simp; omega, by simp⟩⟩
  have h1 := List.all_eq_true.mp h text hi
  rw [hp] at h1
  simpa [hm] using h1

theorem calm_two {c : Cfg} {raw : RawEntity} (h1 : calmHere c raw.value = true) (h2 : calmParts c (raw.parse c) = true) :
    Calm c raw := by
  intro n whole hi
  cases hi with
  | zero => exact calmHere_sound h1
  | succ hpo hi =>
    obtain ⟨st, ps, hp, hm⟩ := hpo
    rw [hp] at h2
    have h3 := List.all_eq_true.mp h2 _ hm
    simp only [Bool.and_eq_true, Bool.not_eq_true'] at h3
    cases hi with
    | zero => exact calmHere_sound h3.1
    | succ hpo =>
      obtain ⟨st', ps', hp', -⟩ := hpo
      rw [hp'] at h3
      cases h3.2

/-- A multipart entity with one part. -/
example : isMultipart (({ bombPart.entity with value := b! "--b\r\n\r\nhi\r\n--b--\r\n" } : RawEntity).parse
    (Cfg.concrete .full)) = true ∧
    Calm (Cfg.concrete .full) { bombPart.entity with value := b! "--b\r\n\r\nhi\r\n--b--\r\n" } :=
  ⟨by decide +kernel, calm_two (by decide +kernel) (by decide +kernel)⟩

/-- The length of the multipart entities only. -/
example : multipartLength [{ bombPart.entity with value := b! "--b\r\n" }, examplePart.entity] = 5 := by decide +kernel

example : wellQuoted (b! "a=3D=\r\nb\r\n=e9\tc") = true ∧ wellQuoted (b! "a=X") = false ∧ wellQuoted [233] = false := by
  decide +kernel

/-- Two ways to become longer: bytes that are not ASCII, and `=` without digits. -/
example : (qpDecode [255]).length = 3 ∧ (qpDecode (b! "=X\r\n")).length = 6 := by decide +kernel

/-- Thirty levels: a message of less than 17000 bytes takes more than 68 million million steps. -/
example : 200 + 200 * 30 + 11 * 30 * 30 < 17000 ∧ 68000000000000 < 3 ^ 30 / 3 := by decide +kernel

end EmailParser
