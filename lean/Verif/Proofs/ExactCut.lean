import Verif.Spec.ExactCut
import Verif.Proofs.ExactPart
import Verif.Proofs.ExactAddress
/-
Header lines of which only a beginning is read.
-/
namespace EmailParser
open Spec

variable {α : Type} {c : Cfg}

/-! ### Last characters -/

theorem commentN_last : ∀ (n : Nat) (w : Bytes), CommentN n w () → ∃ y, w = y ++ [41]
  | 0, _, h => h.elim
  | n + 1, w, h => by
    obtain ⟨_, _, _, rfl, rfl, s, _, _, rfl, -, f, _, _, rfl, -, hl⟩ := h
    have hl : _ = b! ")" := hl
    subst hl
    exact ⟨b! "(" ++ (s ++ f), by simp⟩

theorem gap_last {g : Bytes} (h : Gap c g ()) {y : Bytes} {b : UInt8} (e : g = y ++ [b]) : tokenChar b = false := by
  have key : ∀ b : UInt8, wsp b = true → tokenChar b = false := by decide +kernel
  obtain ⟨s, f, vs, o, rfl, hs, hf⟩ := gap_iff.mp h
  have white : ∀ z a : Bytes, a ≠ [] → (∀ x ∈ a, wsp x = true) → z ++ a = y ++ [b] → tokenChar b = false := by
    intro z a hne ha e
    obtain ⟨a', b', rfl⟩ := (List.eq_nil_or_concat a).resolve_left hne
    rw [List.concat_eq_append, ← List.append_assoc] at e
    have := List.append_inj_right' e rfl
    simp only [List.cons.injEq, and_true] at this
    subst this
    exact key _ (ha _ (by simp))
  rcases hf with ⟨rfl, rfl⟩ | ⟨v, rfl, hf⟩
  · rw [List.append_nil] at e
    clear h
    have : s = [] ∨ ∃ y, s = y ++ [41] := by
      clear e
      induction hs with
      | nil => exact .inl rfl
      | cons hp hs ih =>
        rename_i w₁ w₂ a as
        rcases ih with rfl | ⟨y, rfl⟩
        · obtain ⟨g, x, o, rfl, -, hx⟩ := hp
          obtain ⟨y, rfl⟩ := commentN_last _ _ hx
          exact .inr ⟨g ++ y, by simp⟩
        · exact .inr ⟨w₁ ++ y, by simp⟩
    rcases this with rfl | ⟨z, rfl⟩
    · simp at e
    · have := List.append_inj_right' e rfl
      simp only [List.cons.injEq, and_true] at this
      subst this
      decide
  · rcases hf with ⟨_, _, a, rfl, ⟨rfl, ha⟩, _, _, ⟨⟩, rfl, rfl, _, _, b', rfl, ⟨rfl, hb, hb'⟩, rfl, rfl⟩ | ⟨rfl, hne, hf⟩
    · refine white (s ++ (a ++ CRLF)) b' hb hb' ?_
      rw [← e]
      simp
    · exact white s _ hne hf e

/-- A quoted string does not end like a token. -/
theorem quotedString_last {w v y : Bytes} {b : UInt8} (h : QuotedString w v) (hd : w.count 40 ≤ c.stack) (e : w = y ++ [b]) :
    tokenChar b = false := by
  obtain ⟨w₁, _, _, rfl, h1, _, _, _, rfl, rfl, s, _, vs, rfl, hs, f, _, fv, rfl, hf, _, _, _, rfl,
    rfl, w₃, _, _, rfl, h3, rfl, rfl⟩ := quotedString_depth h hd
  rcases List.eq_nil_or_concat w₃ with rfl | ⟨z, b', rfl⟩
  · have e : (w₁ ++ (b! "\"" ++ (s ++ f))) ++ [34] = y ++ [b] := by rw [← e]; simp
    have := List.append_inj_right' e rfl
    simp only [List.cons.injEq, and_true] at this
    subst this
    decide
  · have e : (w₁ ++ (b! "\"" ++ (s ++ (f ++ (b! "\"" ++ z))))) ++ [b'] = y ++ [b] := by rw [← e]; simp
    have := List.append_inj_right' e rfl
    simp only [List.cons.injEq, and_true] at this
    subst this
    exact gap_last h3 (List.concat_eq_append)

theorem bareEnd_append {u x : Bytes} (h : BareEnd (u ++ x)) : BareEnd x := fun y b e =>
  h (u ++ y) b (by rw [e]; simp)

/-! ### Where parameters end -/

/-- Where the reader is, before the parameters `s` and the text `rest`. -/
def Pos (c : Cfg) (s rest i : Bytes) : Prop :=
  i = s ++ rest ∨ ∃ g r, s = g ++ (b! ";" ++ r) ∧ Gap c g () ∧ i = b! ";" ++ (r ++ rest)

theorem pos_skip {s rest i : Bytes} (h : Pos c s rest i) :
    i = s ++ rest ∨ ∃ j, skipCfws c i = .ok j ∧ skipCfws c (s ++ rest) = .ok j := by
  rcases h with rfl | ⟨g, r, rfl, hg, rfl⟩
  · exact .inl rfl
  · refine .inr ⟨_, skipCfws_append (w := []) gap_nil semicolon_cfwsEnd, ?_⟩
    rw [List.append_assoc, List.append_assoc]
    exact skipCfws_append hg semicolon_cfwsEnd

theorem begins_token {s rest : Bytes} (hs : Begins s) (hd : s.count 40 ≤ c.stack) (hr : Stops tokenChar rest) :
    Stops tokenChar (s ++ rest) := by
  rcases hs with rfl | ⟨w₁, w₂, rfl, hg1⟩
  · exact hr
  · have hg1 := gap_of_count (c := c) hg1 (by simp only [List.count_append] at hd; omega)
    simp only [List.append_assoc]
    exact gap_token hg1 (stops_cons.mpr (by decide))

theorem value_cut {s val value rest : Bytes} (hv : ParamText val value) (hs : Begins s) (hb : s = [] → BareEnd val)
    (hr : Stops tokenChar rest) (hi : Calm c (val ++ (s ++ rest))) :
    ∃ i, parameterValue c (val ++ (s ++ rest)) = .ok (i, value) ∧ Pos c s rest i := by
  have hd := hi.fits.depth
  simp only [List.count_append] at hd
  unfold parameterValue
  rcases hv with ⟨rfl, hv1, hv2⟩ | hv
  · have := token_append hv1 hv2 (begins_token (c := c) hs (by omega) hr)
    exact ⟨_, by simp only [matchParsers, this, ok_bind], .inl rfl⟩
  · rcases hs with rfl | ⟨w₁, w₂, rfl, hg1⟩
    · exfalso
      obtain ⟨y, b, rfl⟩ := (List.eq_nil_or_concat val).resolve_left (by
        rintro rfl
        obtain ⟨q, t, e, -, -, hq, -⟩ := quotedString_then (c := c) hv (by simp)
        exact hq (List.append_eq_nil_iff.mp e.symm).1)
      have h1 := quotedString_last (c := c) hv (by omega) List.concat_eq_append
      rw [hb rfl y b List.concat_eq_append] at h1
      cases h1
    · obtain ⟨q, g', rfl, hg', hq1, hq2, hq3⟩ := quotedString_then (c := c) hv (by omega)
      have hg1 := gap_of_count (c := c) hg1 (by simp only [List.count_append] at hd; omega)
      have hj := gap_join hg' hg1 (hi.lines.infix ⟨q, b! ";" ++ (w₂ ++ rest), by simp⟩)
      have h1 := skipCfws_append (c := c) hj (semicolon_cfwsEnd (t := w₂ ++ rest))
      have e : g' ++ (w₁ ++ (b! ";" ++ w₂) ++ rest) = g' ++ w₁ ++ (b! ";" ++ (w₂ ++ rest)) := by simp
      rw [← e] at h1
      have hq4 := hq3 _ _ h1
      obtain ⟨x, hx⟩ : ∃ x, token (q ++ g' ++ (w₁ ++ (b! ";" ++ w₂) ++ rest)) = .err x := by
        unfold token
        rw [isTokenChar_eq]
        refine takeWhile1_err fun b u hb => hq1 b ?_ ?_
        · exact q.tail
        · cases q with
          | nil => exact absurd rfl hq2
          | cons b' q => cases hb; rfl
      exact ⟨_, by simp only [matchParsers, hx, hq4, err_bind], .inr ⟨w₁, w₂, rfl, hg1, rfl⟩⟩

theorem parameter_cut {s x rest : Bytes} {p : RawParam} (hx : Parameter x p) (hs : Begins s) (hb : s = [] → BareEnd x)
    (hr : Stops tokenChar rest) (hi : Calm c (x ++ (s ++ rest))) :
    ∃ i, parameter c (x ++ (s ++ rest)) = .ok (i, p) ∧ Pos c s rest i := by
  obtain ⟨g₁, _, _, rfl, hg1, _, _, _, rfl, rfl, g₂, _, _, rfl, hg2, n, _, ⟨name, index, encoded⟩, rfl, hn, _, _, _, rfl, rfl,
    val, _, value, rfl, hv, rfl, rfl⟩ := hx
  have hd := hi.fits.depth
  simp only [List.count_append] at hd
  have hg1 := gap_of_count (c := c) hg1 (by omega)
  have hg2 := gap_of_count (c := c) hg2 (by omega)
  simp only [List.append_assoc, List.append_nil] at hi hb ⊢
  obtain ⟨i, h1, h2⟩ := value_cut (c := c) hv hs
    (fun h => bareEnd_append (u := g₁ ++ (b! ";" ++ (g₂ ++ (n ++ b! "=")))) (by simpa only [List.append_assoc] using hb h)) hr
    (hi.infix ⟨g₁ ++ (b! ";" ++ (g₂ ++ (n ++ b! "="))), [], by simp⟩)
  obtain ⟨hname, hne, htok⟩ := paramName_reads (r := val ++ (s ++ rest)) hn
  refine ⟨i, ?_, h2⟩
  unfold parameter
  rw [skipCfws_append hg1 semicolon_cfwsEnd]
  simp only [ok_bind, tag_append]
  rw [skipCfws_append hg2 (tokenChar_cfwsEnd hne htok)]
  simp only [ok_bind, hname, tag_append, h1]
  rfl

theorem parameter_begins {x : Bytes} {p : RawParam} (hx : Parameter x p) : ∃ g r, x = g ++ (b! ";" ++ r) ∧ OptCfws g () := by
  obtain ⟨g, _, _, rfl, hg, _, r, _, rfl, rfl, -⟩ := hx
  exact ⟨g, r, rfl, hg⟩

theorem params_begins {s : Bytes} {ps : List RawParam} (hs : Gram.star Parameter s ps) : Begins s := by
  cases hs with
  | nil => exact .inl rfl
  | @cons _ s' _ _ hp hs =>
    obtain ⟨g, r, rfl, hg⟩ := parameter_begins hp
    exact .inr ⟨g, r ++ s', by simp, hg⟩

theorem parameter_skip {i i' j : Bytes} (h : skipCfws c i = .ok j) (h' : skipCfws c i' = .ok j) :
    parameter c i = parameter c i' := by
  unfold parameter
  rw [h, h']

theorem bareEnd_left {x s : Bytes} (h : BareEnd (x ++ s)) : s = [] → BareEnd x := by
  rintro rfl
  simpa using h

/-- Parameters are read up to a text with which no other one begins, if they do not end with a quoted value. -/
theorem params_cut {s rest : Bytes} {ps : List RawParam} (hs : Gram.star Parameter s ps) (hr : Stops tokenChar rest)
    (he : ∃ e, parameter c rest = .err e) : ∀ i, BareEnd s → Calm c (s ++ rest) → Pos c s rest i →
      many i (parameter c) = .ok (rest, ps) := by
  induction hs with
  | nil =>
    intro i _ _ hp
    rcases hp with rfl | ⟨g, r, e, -⟩
    · exact many_err he
    · simp at e
  | @cons x s p ps hx hs ih =>
    intro i hb hi hp
    rw [List.append_assoc] at hi
    obtain ⟨i', h1, h2⟩ := parameter_cut (c := c) hx (params_begins hs) (bareEnd_left hb) hr hi
    have h3 : parameter c i = .ok (i', p) := by
      rcases pos_skip hp with rfl | ⟨j, hj, hj'⟩
      · rw [List.append_assoc]; exact h1
      · rw [parameter_skip hj hj', List.append_assoc]; exact h1
    refine many_cons h3 ?_ (ih i' (bareEnd_append hb) hi.right h2)
    have hs := parameter_parses (c := c) i
    rw [h3] at hs
    obtain ⟨x', e', hx'⟩ := hs
    have := List.length_pos_iff.mpr (parameter_progress _ _ hx')
    have e' := congrArg List.length e'
    simp only [List.length_append] at e'
    omega

theorem value_prefix {val value r : Bytes} (hv : ParamText val value) (hi : Calm c (val ++ r)) :
    ∃ y, parameterValue c (val ++ r) = .ok y := by
  unfold parameterValue
  rcases hv with ⟨rfl, hv1, hv2⟩ | hv
  · obtain ⟨r', v, h⟩ : ∃ r' v, token (value ++ r) = .ok (r', v) := by
      unfold token
      rw [isTokenChar_eq]
      rcases takeWhile1_cases tokenChar (value ++ r) with ⟨hst, -⟩ | ⟨w, r', -, -, -, -, h'⟩
      · exfalso
        cases value with
        | nil => exact hv1 rfl
        | cons b t =>
          have := stops_cons.mp hst
          rw [hv2 b (by simp)] at this
          cases this
      · exact ⟨_, _, h'⟩
    exact ⟨(r', v), by simp only [matchParsers, h, ok_bind]⟩
  · obtain ⟨q, g', rfl, hg', hq1, hq2, hq3⟩ := quotedString_then (c := c) hv (by
      have := hi.fits.depth
      rw [List.count_append] at this
      omega)
    obtain ⟨_, r', -, -, h1⟩ := (hi.infix ⟨q, [], by simp⟩ : Calm c (g' ++ r)).skip
    obtain ⟨x, hx⟩ : ∃ x, token (q ++ g' ++ r) = .err x := by
      unfold token
      rw [isTokenChar_eq]
      refine takeWhile1_err fun b u hb => hq1 b ?_ ?_
      · exact q.tail
      · cases q with
        | nil => exact absurd rfl hq2
        | cons b' q => cases hb; rfl
    exact ⟨(r', value), by simp only [matchParsers, hx, hq3 _ _ h1, err_bind]⟩

/-- What begins with a parameter is read as one. -/
theorem parameter_prefix {x r : Bytes} {p : RawParam} (hx : Parameter x p) (hi : Calm c (x ++ r)) :
    ∃ y, parameter c (x ++ r) = .ok y := by
  obtain ⟨g₁, _, _, rfl, hg1, _, _, _, rfl, rfl, g₂, _, _, rfl, hg2, n, _, ⟨name, index, encoded⟩, rfl, hn, _, _, _, rfl, rfl,
    val, _, value, rfl, hv, rfl, rfl⟩ := hx
  have hd := hi.fits.depth
  simp only [List.count_append] at hd
  have hg1 := gap_of_count (c := c) hg1 (by omega)
  have hg2 := gap_of_count (c := c) hg2 (by omega)
  simp only [List.append_assoc, List.append_nil] at hi ⊢
  obtain ⟨⟨i, v⟩, h1⟩ : ∃ y, parameterValue c (val ++ r) = .ok y := value_prefix hv (hi.infix ⟨g₁ ++ (b! ";" ++ (g₂ ++ (n ++ b! "="))), [], by simp⟩)
  obtain ⟨hname, hne, htok⟩ := paramName_reads (r := val ++ r) hn
  unfold parameter
  rw [skipCfws_append hg1 semicolon_cfwsEnd]
  simp only [ok_bind, tag_append]
  rw [skipCfws_append hg2 (tokenChar_cfwsEnd hne htok)]
  simp only [ok_bind, hname, tag_append, h1]
  exact ⟨_, rfl⟩

theorem parameter_none {i : Bytes} (hi : Calm c i) :
    (∃ e, parameter c i = .err e) ↔ ¬ StartsIn (fun _ => Parameter) i := by
  constructor
  · rintro ⟨e, he⟩ ⟨w, r, v, rfl, hw⟩
    obtain ⟨y, hy⟩ := parameter_prefix hw hi
    rw [hy] at he
    cases he
  · intro h
    rcases hi.parse (parameter_parses (c := c)) with ⟨w, r, v, e, hw, -⟩ | h'
    · exact absurd ⟨w, r, v, e, hw⟩ h
    · exact h'

/-! ### Items of dispositions -/

theorem filename_item {x v : Bytes} (hx : DispositionParam x (.filename v)) (hd : x.count 40 ≤ c.stack) :
    ∃ u val, x = u ++ val ∧ ParamText val v ∧
      ∀ r i v', parameterValue c (val ++ r) = .ok (i, v') → dispositionItem c (x ++ r) = .ok (i, .filename v') := by
  rcases hx with ⟨_, h, hx⟩ | ⟨_, h, -⟩ | ⟨_, h, -⟩ | ⟨_, h, -⟩ | ⟨_, h, -⟩ <;> cases h
  obtain ⟨g₁, _, _, rfl, hg1, _, _, _, rfl, rfl, g₂, _, _, rfl, hg2, n, _, _, rfl, hnm, _, val, _, rfl, rfl, ht⟩ := hx
  have hnm : n.map asciiLower = (b! "filename").map asciiLower := hnm
  simp only [List.count_append] at hd
  have hg1 := gap_of_count (c := c) hg1 (by omega)
  have hg2 := gap_of_count (c := c) hg2 (by omega)
  refine ⟨g₁ ++ (b! ";" ++ (g₂ ++ (n ++ b! "="))), val, by simp, ht, fun r i v' h1 => ?_⟩
  have hf : filenameParameter c (g₁ ++ (b! ";" ++ (g₂ ++ (n ++ (b! "=" ++ (val ++ r)))))) = .ok (i, v') := by
    unfold filenameParameter
    rw [skipCfws_append hg1 semicolon_cfwsEnd]
    simp only [ok_bind, tag_append]
    rw [skipCfws_append hg2 (name_cfwsEnd hnm (by decide) (by decide +kernel))]
    simp only [ok_bind]
    rw [show (b! "FILENAME") = (b! "filename").map swapCase by decide +kernel, tagNoCase_append _ _ hnm]
    simp only [ok_bind, tag_append, h1]
  unfold dispositionItem
  simp only [List.append_assoc, matchParsers, hf, ok_bind]

theorem item_parameter {x : Bytes} {p : RawParam} (hx : DispositionParam x (.parameter p)) {r i : Bytes}
    (hd : x.count 40 ≤ c.stack) (hp : parameter c (x ++ r) = .ok (i, p))
    (hdates : ∀ name ∈ dateParams, ∃ y, dateParameter c (x ++ r) name (name.map swapCase) = .err y) :
    dispositionItem c (x ++ r) = .ok (i, .parameter p) := by
  rcases hx with ⟨_, h, -⟩ | ⟨_, h, -⟩ | ⟨_, h, -⟩ | ⟨_, h, -⟩ | ⟨_, h, hx, hno⟩ <;> cases h
  obtain ⟨g₁, _, _, rfl, hg1, _, _, _, rfl, rfl, g₂, _, _, rfl, hg2, n, _, ⟨name, index, encoded⟩, rfl, hn, _, _, _, rfl, rfl,
    val, _, value, rfl, hv, rfl, rfl⟩ := hx
  simp only [List.count_append] at hd
  have hg1 := gap_of_count (c := c) hg1 (by omega)
  have hg2 := gap_of_count (c := c) hg2 (by omega)
  obtain ⟨_, e1⟩ := filenameParameter_none (c := c) (r := val ++ r) hg1 hg2 hn hno
  obtain ⟨_, e2⟩ := hdates (b! "creation-date") (by decide)
  obtain ⟨_, e3⟩ := hdates (b! "modification-date") (by decide)
  obtain ⟨_, e4⟩ := hdates (b! "read-date") (by decide)
  rw [show (b! "creation-date").map swapCase = b! "CREATION-DATE" by decide +kernel] at e2
  rw [show (b! "modification-date").map swapCase = b! "MODIFICATION-DATE" by decide +kernel] at e3
  rw [show (b! "read-date").map swapCase = b! "READ-DATE" by decide +kernel] at e4
  simp only [List.append_assoc, List.append_nil] at hp e2 e3 e4
  unfold dispositionItem
  simp only [List.append_assoc, List.append_nil, matchParsers, e1, e2, e3, e4, hp, err_bind, ok_bind]

theorem date_absent {i : Bytes} (h : ¬ BeginsWithDate i) (hi : Calm c i) {name : Bytes} (hn : name ∈ dateParams) :
    ∃ y, dateParameter c i name (name.map swapCase) = .err y := by
  rcases hi.parse (p := fun i => dateParameter c i name (name.map swapCase)) (dateParameter_parses (c := c) (name := name) rfl) with
    ⟨x, r, d, e, hx, -⟩ | h'
  · exact absurd ⟨name, hn, x, r, d, e, hx⟩ h
  · exact h'

/-- The item is a date. -/
def IsDate : DispositionItem → Prop
  | .creationDate _ => True
  | .modificationDate _ => True
  | .readDate _ => True
  | _ => False

theorem item_date {x r : Bytes} {v : DispositionItem} (hx : DispositionParam x v) (hv : IsDate v) (hd : x.count 40 ≤ c.stack) :
    dispositionItem c (x ++ r) = .ok (r, v) := by
  rcases hx with ⟨v, rfl, -⟩ | ⟨d, rfl, h⟩ | ⟨d, rfl, h⟩ | ⟨d, rfl, h⟩ | ⟨p, rfl, -, -⟩
  · exact hv.elim
  · exact date_reads h (by decide) hd
  · exact date_reads h (by decide) hd
  · exact date_reads h (by decide) hd
  · exact hv.elim

theorem item_cut {s x rest : Bytes} {v : DispositionItem} (hx : DispositionParam x v) (hs : Begins s)
    (hb : s = [] → IsDate v ∨ BareEnd x) (hno : ∀ p, v = .parameter p → ¬ BeginsWithDate (x ++ (s ++ rest)))
    (hr : Stops tokenChar rest) (hi : Calm c (x ++ (s ++ rest))) :
    ∃ i, dispositionItem c (x ++ (s ++ rest)) = .ok (i, v) ∧ Pos c s rest i := by
  have hd := hi.left.fits.depth
  have hx' := hx
  rcases hx' with ⟨v, rfl, hf⟩ | ⟨d, rfl, h⟩ | ⟨d, rfl, h⟩ | ⟨d, rfl, h⟩ | ⟨p, rfl, hp, -⟩
  · have hb := fun h => (hb h).resolve_left id
    obtain ⟨u, val, rfl, ht, hf⟩ := filename_item (c := c) hx hd
    rw [List.append_assoc] at hi
    obtain ⟨i, h1, h2⟩ := value_cut (c := c) ht hs (fun h => bareEnd_append (hb h)) hr hi.right
    exact ⟨i, hf _ _ _ h1, h2⟩
  · exact ⟨_, item_date hx trivial hd, .inl rfl⟩
  · exact ⟨_, item_date hx trivial hd, .inl rfl⟩
  · exact ⟨_, item_date hx trivial hd, .inl rfl⟩
  · obtain ⟨i, h1, h2⟩ := parameter_cut (c := c) hp hs (fun h => (hb h).resolve_left id) hr hi
    exact ⟨i, item_parameter hx hd h1 fun name hn => date_absent (hno p rfl) hi hn, h2⟩

theorem item_pos {i s rest : Bytes} (hp : Pos c s rest i) : dispositionItem c i = dispositionItem c (s ++ rest) := by
  rcases pos_skip hp with rfl | ⟨j, hj, hj'⟩
  · rfl
  · exact dispositionItem_skip hj hj'

theorem getLast_date {v : DispositionItem} {vs : List DispositionItem} {x s : Bytes} (h : DateOrBareEnd (x ++ s) (v :: vs)) :
    (vs ≠ [] → DateOrBareEnd s vs) ∧ (vs = [] → IsDate v ∨ BareEnd (x ++ s)) := by
  rcases h with ⟨d, h⟩ | h
  · refine ⟨fun hne => .inl ⟨d, ?_⟩, ?_⟩
    · rwa [List.getLast?_cons_of_ne_nil hne] at h
    · rintro rfl
      refine .inl ?_
      simp only [List.getLast?_singleton, Option.some.injEq] at h
      rcases h with rfl | rfl | rfl <;> trivial
  · exact ⟨fun _ => .inr (bareEnd_append h), fun _ => .inr h⟩

/-- Items are read up to a text with which no other one begins, if they do not end with a quoted value. -/
theorem items_cut {s rest : Bytes} {vs : List DispositionItem} (hs : DatesFirst rest s vs) (hr : Stops tokenChar rest)
    (he : ∃ e, dispositionItem c rest = .err e) : ∀ i, DateOrBareEnd s vs → Calm c (s ++ rest) → Pos c s rest i →
      many i (dispositionItem c) = .ok (rest, vs) := by
  induction hs with
  | nil =>
    intro i _ _ hp
    rcases hp with rfl | ⟨g, r, e, -⟩
    · exact many_err he
    · simp at e
  | @cons x s p ps hx hno hs ih =>
    intro i hb hi hp
    have hsv : s = [] ↔ ps = [] := by
      constructor
      · intro h
        cases hs with
        | nil => rfl
        | @cons w s' _ _ hx' _ _ =>
          obtain ⟨g, r, rfl, -⟩ := item_begins hx'
          simp at h
      · rintro rfl
        cases hs
        rfl
    rw [List.append_assoc] at hi
    obtain ⟨i', h1, h2⟩ := item_cut (c := c) hx hs.begins (fun h => ((getLast_date hb).2 (hsv.mp h)).imp_right (bareEnd_left · h)) hno hr hi
    have h3 : dispositionItem c i = .ok (i', p) := by
      rw [item_pos hp, List.append_assoc]
      exact h1
    have hb' : DateOrBareEnd s ps := by
      by_cases h : ps = []
      · subst h
        cases hs
        exact .inr fun y b e => by simp at e
      · exact (getLast_date hb).1 h
    refine many_cons h3 ?_ (ih i' hb' hi.right h2)
    have hs := dispositionItem_parses (c := c) i
    rw [h3] at hs
    obtain ⟨x', e', hx'⟩ := hs
    have := List.length_pos_iff.mpr (dispositionItem_progress _ _ hx')
    have e' := congrArg List.length e'
    simp only [List.length_append] at e'
    omega

/-- What begins with an item is read as one. -/
theorem item_prefix {x r : Bytes} {v : DispositionItem} (hx : DispositionParam x v) (hi : Calm c (x ++ r)) :
    ∃ y, dispositionItem c (x ++ r) = .ok y := by
  have hd := hi.left.fits.depth
  have hx' := hx
  rcases hx' with ⟨v, rfl, hf⟩ | ⟨d, rfl, h⟩ | ⟨d, rfl, h⟩ | ⟨d, rfl, h⟩ | ⟨p, rfl, hp, -⟩
  · obtain ⟨u, val, rfl, ht, hf⟩ := filename_item (c := c) hx hd
    rw [List.append_assoc] at hi
    obtain ⟨⟨i, v'⟩, h1⟩ := value_prefix (c := c) ht hi.right
    exact ⟨_, hf _ _ _ h1⟩
  · exact ⟨_, item_date hx trivial hd⟩
  · exact ⟨_, item_date hx trivial hd⟩
  · exact ⟨_, item_date hx trivial hd⟩
  · obtain ⟨⟨i, p'⟩, h1⟩ := parameter_prefix (c := c) hp hi
    rcases hi.parse (dispositionItem_parses (c := c)) with ⟨_, _, _, -, -, h⟩ | ⟨e, he⟩
    · exact ⟨_, h⟩
    · exfalso
      have hlast : matchParsers (x ++ r) [fun input => do
          let (i, v) ← parameter c input
          .ok (i, DispositionItem.parameter v)] = .ok (i, .parameter p') := by
        simp only [matchParsers, h1, ok_bind]
      unfold dispositionItem at he
      have step : ∀ {ps : List (Bytes → Res DispositionItem)} {p : Bytes → Res DispositionItem} {i : Bytes} {e : Error},
          matchParsers i (p :: ps) = .err e → ∃ e', matchParsers i ps = .err e' := by
        intro ps p i e h
        unfold matchParsers at h
        cases hp : p i with
        | ok a => rw [hp] at h; cases h
        | abort k => rw [hp] at h; cases h
        | err x => rw [hp] at h; exact ⟨_, h⟩
      obtain ⟨_, he⟩ := step he
      obtain ⟨_, he⟩ := step he
      obtain ⟨_, he⟩ := step he
      obtain ⟨_, he⟩ := step he
      rw [hlast] at he
      cases he

theorem item_none {i : Bytes} (hi : Calm c i) :
    (∃ e, dispositionItem c i = .err e) ↔ ¬ StartsIn (fun _ => DispositionParam) i := by
  constructor
  · rintro ⟨e, he⟩ ⟨w, r, v, rfl, hw⟩
    obtain ⟨y, hy⟩ := item_prefix hw hi
    rw [hy] at he
    cases he
  · intro h
    rcases hi.parse (dispositionItem_parses (c := c)) with ⟨w, r, v, e, hw, -⟩ | h'
    · exact absurd ⟨w, r, v, e, hw⟩ h
    · exact h'

/-! ### How parameters end -/

theorem Settled.comment_err {i : Bytes} (h : Settled c i) : ∃ e, comment c.stack i = .err e := by
  have hf := h.fws_err
  obtain ⟨e, he⟩ := h.cfws_err
  unfold cfws matchParsers at he
  cases hy : realCfws c i with
  | abort k => rw [hy] at he; cases he
  | ok a => rw [hy] at he; cases he
  | err e =>
    unfold realCfws at hy
    rw [optional_err hf] at hy
    simp only [ok_bind] at hy
    cases hw : comment c.stack i with
    | abort k => rw [hw] at hy; cases hy
    | err e => exact ⟨e, rfl⟩
    | ok a =>
      exfalso
      obtain ⟨s, y⟩ := a
      rw [hw] at hy
      rcases bind_eq_err.1 hy with hy | ⟨⟨_, _⟩, -, hy⟩
      · exact realCfwsLoop_noErr hy
      · rcases bind_eq_err.1 hy with hy | ⟨⟨_, _⟩, -, hy⟩
        · exact optFws_noErr hy
        · cases hy

theorem fws_fold {a t : Bytes} {b : UInt8} (ha : ∀ x ∈ a, wsp x = true) (hb : wsp b = true) :
    ∃ y, fws (a ++ (CRLF ++ b :: t)) = .ok y := by
  rw [fws_eq]
  have e : a ++ (CRLF ++ b :: t) = a ++ 13 :: 10 :: b :: t := by simp [CRLF]
  have hd := takeWhile_stop (p := Spec.wsp) (w := a) (b := 13) (r := 10 :: b :: t) ha (by decide)
  have hp : CRLF <+: 13 :: 10 :: b :: t := List.prefix_append CRLF _
  rw [e, hd.2, hd.1, if_pos hp]
  show ∃ y, (takeWhile1 (b :: t) Spec.wsp).bind _ = _
  rcases takeWhile1_cases Spec.wsp (b :: t) with ⟨hst, -⟩ | ⟨w, r', -, -, -, -, h'⟩
  · have := stops_cons.mp hst
    rw [hb] at this
    cases this
  · rw [h']
    exact ⟨_, rfl⟩

/-- Where all white space and comments have been skipped, the line is not folded. -/
theorem settled_noFold {e t : Bytes} {b : UInt8} (he : InlineCfws e ()) (hb : wsp b = true)
    (hd : e.count 40 ≤ c.stack) : ¬ Settled c (e ++ (CRLF ++ b :: t)) := by
  intro h
  obtain ⟨a, _, va, rfl, ⟨rfl, ha⟩, x, _, o, rfl, hx, b', _, vb, rfl, ⟨rfl, hb'⟩, rfl, _⟩ := he
  obtain ⟨_, hf⟩ := h.fws_err
  rcases hx with ⟨rfl, rfl⟩ | ⟨⟨⟩, rfl, m, hx⟩
  · obtain ⟨y, hy⟩ := fws_fold (a := va ++ vb) (t := t) (fun y hy => (List.mem_append.mp hy).elim (ha y) (hb' y)) hb
    simp only [List.append_assoc, List.append_nil, List.nil_append] at hf hy
    rw [hy] at hf
    cases hf
  · have hx := commentN_count m x c.stack hx (by simp only [List.count_append] at hd; omega)
    obtain ⟨_, hcm⟩ := h.comment_err
    simp only [List.append_assoc, List.append_nil] at hf hcm
    by_cases hv : va = []
    · subst hv
      rw [List.nil_append, comment_append _ _ _ hx] at hcm
      cases hcm
    · have hns := comment_noSpace (r := vb ++ (CRLF ++ b :: t)) hx
      have := optFws_append (w := va) (r := x ++ (vb ++ (CRLF ++ b :: t))) (.inr ⟨va, rfl, .inr ⟨rfl, hv, ha⟩⟩) hns
      rw [optional_err ⟨_, hf⟩] at this
      simp only [Outcome.ok.injEq, Prod.mk.injEq] at this
      have := congrArg List.length this.1
      simp only [List.length_append] at this
      exact hv (List.length_eq_zero_iff.mp (by omega))

/-- The text that was read ends like a token, or all that could be skipped after it has been. -/
def ItemEnd (c : Cfg) (u r : Bytes) : Prop := Calm c (u ++ r) → (u ≠ [] ∧ BareEnd u) ∨ Settled c r

instance : Suffix (ItemEnd c) := ⟨fun u u' r h hi => (h (hi.infix ⟨u, [], by simp⟩)).imp_left fun h => ⟨by simp [h.1], by
  rintro y b e
  obtain ⟨z, b', rfl⟩ := (List.eq_nil_or_concat u').resolve_left h.1
  rw [List.concat_eq_append, ← List.append_assoc] at e
  have := List.append_inj_right' e rfl
  simp only [List.cons.injEq, and_true] at this
  subst this
  exact h.2 z b' List.concat_eq_append⟩⟩

theorem value_end {i : Bytes} : On (ItemEnd c) i (parameterValue c i) := by
  unfold parameterValue
  refine matchParsers_on fun p hp => ?_
  simp only [List.mem_cons, List.not_mem_nil, or_false] at hp
  rcases hp with rfl | rfl
  · intro r v h
    obtain ⟨⟨r', v'⟩, h1, h⟩ := bind_eq_ok.1 h
    cases h
    unfold token at h1
    rw [isTokenChar_eq] at h1
    obtain ⟨rfl, hne, hx, -⟩ := takeWhile1_stops h1
    exact ⟨_, rfl, fun _ => .inl ⟨hne, fun y b e => hx b (by rw [e]; simp)⟩⟩
  · intro r v h
    have hs := quotedString_parses (c := c) i
    rw [h] at hs
    obtain ⟨u, rfl, -⟩ := hs
    refine ⟨u, rfl, fun hi => .inr ?_⟩
    obtain ⟨_, _, _, -, -, -, -, hst, -⟩ := quotedString_sound h hi
    exact hst

theorem paramName_on {i : Bytes} : On Anything i (matchParsers i
    [ extendedName,
      fun input => do
        let (input, name) ← token input
        .ok (input, (name, none, false)) ]) := by
  refine matchParsers_on fun p hp => ?_
  simp only [List.mem_cons, List.not_mem_nil, or_false] at hp
  rcases hp with rfl | rfl
  · exact .of_psat (A := .none) (extendedName_parses i)
  · exact .map (.of_psat (A := .none) (token_parses i)) fun _ _ _ _ h => by cases h; rfl

theorem parameter_itemEnd {i : Bytes} : On (ItemEnd c) i (parameter c i) := by
  unfold parameter
  refine .skip (fun r h => skipCfws_suffix h) fun r => ?_
  refine .bind (.of_psat (A := .none) (tag_parses _ _ r)) fun r _ => ?_
  refine .skip (fun r h => skipCfws_suffix h) fun r => ?_
  refine .bind paramName_on fun r _ => ?_
  refine .bind (.of_psat (A := .none) (tag_parses _ _ r)) fun r _ => ?_
  exact .map value_end fun _ _ _ _ h => by cases h; rfl

theorem filename_itemEnd {i : Bytes} : On (ItemEnd c) i (filenameParameter c i) := by
  unfold filenameParameter
  refine .skip (fun r h => skipCfws_suffix h) fun r => ?_
  refine .bind (.of_psat (A := .none) (tag_parses _ _ r)) fun r _ => ?_
  refine .skip (fun r h => skipCfws_suffix h) fun r => ?_
  refine .bind (.of_psat (A := .none) (tagNoCase_parses _ (by decide +kernel) r)) fun r _ => ?_
  refine .bind (.of_psat (A := .none) (tag_parses _ _ r)) fun r _ => ?_
  exact value_end

theorem bareEnd_cons {x s : Bytes} (hs : s ≠ []) (h : BareEnd s) : BareEnd (x ++ s) := by
  intro y b e
  obtain ⟨z, b', rfl⟩ := (List.eq_nil_or_concat s).resolve_left hs
  rw [List.concat_eq_append, ← List.append_assoc] at e
  have := List.append_inj_right' e rfl
  simp only [List.cons.injEq, and_true] at this
  subst this
  exact h z b' List.concat_eq_append

theorem params_end : ∀ (fuel : Nat) (i rest : Bytes) (ps : List RawParam),
    manyLoop (parameter c) fuel i = .ok (rest, ps) → ∃ s, i = s ++ rest ∧ Gram.star Parameter s ps ∧
      (∃ e, parameter c rest = .err e) ∧ (Calm c i → BareEnd s ∨ Settled c rest)
  | 0, i, rest, ps, h => by cases h
  | fuel + 1, i, rest, ps, h => by
    unfold manyLoop at h
    cases hx : parameter c i with
    | abort k => rw [hx] at h; cases h
    | err y =>
      rw [hx] at h
      cases h
      exact ⟨[], by simp, .nil, ⟨_, hx⟩, fun _ => .inl fun y b e => by simp at e⟩
    | ok a =>
      obtain ⟨r, p⟩ := a
      rw [hx] at h
      dsimp only at h
      obtain ⟨⟨r', ps'⟩, h1, h2⟩ := bind_eq_ok.1 h
      cases h2
      obtain ⟨s, rfl, hs, he, hb⟩ := params_end fuel r _ ps' h1
      have hp := parameter_parses (c := c) i
      rw [hx] at hp
      obtain ⟨x, rfl, hp⟩ := hp
      refine ⟨x ++ s, by simp, .cons hp hs, he, fun hi => ?_⟩
      by_cases hs' : s = []
      · subst hs'
        obtain ⟨u, e, hu⟩ := parameter_itemEnd _ _ hx
        obtain rfl := List.append_cancel_right e
        exact (hu hi).imp_left fun h => by simpa using h.2
      · exact (hb hi.right).imp_left (bareEnd_cons hs')

theorem matchParsers_ok {i : Bytes} {a : Bytes × α} : ∀ {ps : List (Bytes → Res α)}, matchParsers i ps = .ok a →
    ∃ p ∈ ps, p i = .ok a
  | [], h => by cases h
  | p :: ps, h => by
    unfold matchParsers at h
    cases hx : p i with
    | ok r => rw [hx] at h; cases h; exact ⟨p, by simp, hx⟩
    | err e =>
      rw [hx] at h
      obtain ⟨q, hq, h'⟩ := matchParsers_ok h
      exact ⟨q, by simp [hq], h'⟩
    | abort k => rw [hx] at h; cases h

theorem item_itemEnd {i r : Bytes} {v : DispositionItem} (h : dispositionItem c i = .ok (r, v)) :
    IsDate v ∨ ∃ u, i = u ++ r ∧ ItemEnd c u r := by
  unfold dispositionItem at h
  obtain ⟨p, hp, h⟩ := matchParsers_ok h
  simp only [List.mem_cons, List.not_mem_nil, or_false] at hp
  rcases hp with rfl | rfl | rfl | rfl | rfl <;> obtain ⟨⟨r', v'⟩, h1, h⟩ := bind_eq_ok.1 h <;> cases h
  · exact .inr (filename_itemEnd _ _ h1)
  · exact .inl trivial
  · exact .inl trivial
  · exact .inl trivial
  · exact .inr (parameter_itemEnd _ _ h1)

theorem items_end : ∀ (fuel : Nat) (i rest : Bytes) (vs : List DispositionItem),
    manyLoop (dispositionItem c) fuel i = .ok (rest, vs) → ∃ s, i = s ++ rest ∧ (i.count 40 ≤ c.stack → DatesFirst rest s vs) ∧
      (∃ e, dispositionItem c rest = .err e) ∧ (vs = [] → s = []) ∧ (Calm c i → DateOrBareEnd s vs ∨ Settled c rest)
  | 0, i, rest, vs, h => by cases h
  | fuel + 1, i, rest, vs, h => by
    unfold manyLoop at h
    cases hx : dispositionItem c i with
    | abort k => rw [hx] at h; cases h
    | err y =>
      rw [hx] at h
      cases h
      exact ⟨[], by simp, fun _ => .nil, ⟨_, hx⟩, fun _ => rfl, fun _ => .inl (.inr fun y b e => by simp at e)⟩
    | ok a =>
      obtain ⟨r, v⟩ := a
      rw [hx] at h
      dsimp only at h
      obtain ⟨⟨r', vs'⟩, h1, h2⟩ := bind_eq_ok.1 h
      cases h2
      obtain ⟨s, rfl, hs, he, hne, hb⟩ := items_end fuel r _ vs' h1
      have hp := dispositionItem_parses (c := c) i
      rw [hx] at hp
      obtain ⟨x, rfl, hp⟩ := hp
      refine ⟨x ++ s, by simp, fun hd => ?_, he, fun h => absurd h (by simp), fun hi => ?_⟩
      · simp only [List.count_append] at hd
        refine .cons hp ?_ (hs (by rw [List.count_append]; omega))
        rintro p rfl ⟨name, hn, y, z, d, e1, hy⟩
        have hc := congrArg (List.count 40) e1
        simp only [List.count_append] at hc
        exact item_not_date hx hn y z d e1 (by omega) hy
      · by_cases hv : vs' = []
        · obtain rfl := hne hv
          subst hv
          rcases item_itemEnd hx with hd | ⟨u, e, hu⟩
          · refine .inl (.inl ?_)
            cases v with
            | filename v => exact hd.elim
            | parameter p => exact hd.elim
            | creationDate d => exact ⟨d, .inl rfl⟩
            | modificationDate d => exact ⟨d, .inr (.inl rfl)⟩
            | readDate d => exact ⟨d, .inr (.inr rfl)⟩
          · obtain rfl := List.append_cancel_right e
            exact (hu hi).imp_left fun h => .inr (by simpa using h.2)
        · refine (hb hi.right).imp_left ?_
          rintro (⟨d, h⟩ | h)
          · exact .inl ⟨d, by rwa [List.getLast?_cons_of_ne_nil hv]⟩
          · by_cases hs' : s = []
            · subst hs'
              have := hs (by
                have := hi.fits.depth
                simp only [List.count_append, List.nil_append] at this ⊢
                omega)
              generalize hz : ([] : Bytes) = z at this
              cases this with
              | nil => exact absurd rfl hv
              | @cons w s' _ _ hx' _ _ =>
                obtain ⟨g, r, rfl, -⟩ := item_begins hx'
                simp at hz
            · exact .inr (bareEnd_cons hs' h)

/-! ### Values of headers -/

/-- A `Content-Type` value is read up to a folded line end exactly as `TypeCut` says. -/
theorem typeValue_cut {w t : Bytes} {b : UInt8} {v : ContentType × Bytes × Params} (hb : wsp b = true)
    (hi : Calm c (w ++ (CRLF ++ b :: t))) :
    contentTypeValue c (w ++ (CRLF ++ b :: t)) = .ok (CRLF ++ b :: t, v) ↔ TypeCut c (b :: t) w v := by
  constructor
  · intro h
    unfold contentTypeValue at h
    obtain ⟨i1, h1, h⟩ := bind_eq_ok.1 h
    obtain ⟨⟨i2, type⟩, h2, h⟩ := bind_eq_ok.1 h
    obtain ⟨⟨i3, _⟩, h3, h⟩ := bind_eq_ok.1 h
    obtain ⟨⟨i4, st⟩, h4, h⟩ := bind_eq_ok.1 h
    obtain ⟨⟨i5, ps⟩, h5, h⟩ := bind_eq_ok.1 h
    obtain ⟨q, h6, h⟩ := bind_eq_ok.1 h
    obtain ⟨⟨i7, _⟩, h7, h⟩ := bind_eq_ok.1 h
    dsimp only at h2 h3 h4 h5 h6 h7 h
    cases h
    have s1 := skipCfws_sat (c := c) (w ++ (CRLF ++ b :: t))
    rw [h1] at s1
    obtain ⟨g, e1, hg⟩ := s1
    have s2 := mimeType_parses (A := aborts c) i1
    rw [h2] at s2
    obtain ⟨ty, e2, hty⟩ := s2
    have e3 := tag_ok_iff.mp h3
    have s4 := token_parses (A := aborts c) i3
    rw [h4] at s4
    obtain ⟨st', e4, hst⟩ := s4
    obtain ⟨s, e5, hs, hend, hbe⟩ := params_end _ _ _ _ h5
    have s7 := ignoreInlineCfws_parses (c := c) i5
    rw [h7] at s7
    obtain ⟨e, e7, he⟩ := s7
    dsimp only at e2 e3 e4 e5 e7
    subst e7 e5 e4 e3 e2
    have ew : w = g ++ (ty ++ (b! "/" ++ (st' ++ (s ++ e)))) := by
      have : w ++ (CRLF ++ b :: t) = (g ++ (ty ++ (b! "/" ++ (st' ++ (s ++ e))))) ++ (CRLF ++ b :: t) := by rw [e1]; simp
      exact List.append_cancel_right this
    have hi' : Calm c (s ++ (e ++ (CRLF ++ b :: t))) := hi.infix ⟨g ++ (ty ++ (b! "/" ++ st')), [], by rw [ew]; simp⟩
    have hst' : st = st' := hst.1
    dsimp only at hst
    subst hst'
    refine ⟨g, ty, type, st, s, ps, q, e, ew, hg, hty, hst, hs, ?_, ?_, he, rfl, (parameter_none hi'.right).mp hend⟩
    · refine (hbe hi').resolve_right (settled_noFold he hb ?_)
      exact hi'.right.left.fits.depth
    · exact (collectParameters_spec (c := c) (parameters_small hs).1).1 q h6
  · rintro ⟨g, ty, type, st, s, ps, q, e, rfl, hg, hty, ⟨-, hst1, hst2⟩, hs, hbe, hq, he, rfl, hno⟩
    have hty := namedOr_written hty
    obtain ⟨hty1, hty2⟩ := writtenName_token (by decide +kernel) hty
    have hd := hi.fits.depth
    simp only [List.count_append] at hd
    have hg := gap_of_count (c := c) hg (by omega)
    have hps := items_stop (c := c) (t := b :: t) (params_begins hs) he (by omega)
    have hcol := params_collected hs hq fun h => by
      have := hi.fits.stars h
      simp only [List.count_append] at this
      omega
    have hi' : Calm c (s ++ (e ++ (CRLF ++ b :: t))) := hi.infix ⟨g ++ (ty ++ (b! "/" ++ st)), [], by simp⟩
    have h1 := params_cut (c := c) (rest := e ++ (CRLF ++ b :: t)) hs (inlineCfws_stops he (by decide +kernel) (by decide) (stops_cons.mpr (by decide)))
      ((parameter_none hi'.right).mpr hno) _ hbe hi' (.inl rfl)
    have h2 := ignoreInlineCfws_append (c := c) he (by omega) (crlf_cfwsStop (r := b :: t))
    unfold contentTypeValue
    have hslash : ∀ t, Stops Spec.tokenChar (b! "/" ++ t) := fun t => stops_cons.mpr (by decide)
    simp only [List.append_assoc]
    rw [skipCfws_append hg (tokenChar_cfwsEnd hty1 hty2), ok_bind, mimeType_append hty (hslash _), ok_bind]
    dsimp only
    rw [tag_append, ok_bind]
    dsimp only
    rw [token_append hst1 hst2 hps, ok_bind]
    dsimp only
    rw [h1, ok_bind]
    dsimp only
    rw [hcol, ok_bind, h2, ok_bind]
    rfl

/-- A `Content-Disposition` value is read up to a folded line end exactly as `DispositionCut` says. -/
theorem dispositionValue_cut {w t : Bytes} {b : UInt8} {v : Disposition} (hb : wsp b = true)
    (hi : Calm c (w ++ (CRLF ++ b :: t))) :
    contentDispositionValue c (w ++ (CRLF ++ b :: t)) = .ok (CRLF ++ b :: t, v) ↔ DispositionCut c (b :: t) w v := by
  constructor
  · intro h
    unfold contentDispositionValue at h
    obtain ⟨i1, h1, h⟩ := bind_eq_ok.1 h
    obtain ⟨⟨i2, type⟩, h2, h⟩ := bind_eq_ok.1 h
    obtain ⟨⟨i3, items⟩, h3, h⟩ := bind_eq_ok.1 h
    obtain ⟨q, h4, h⟩ := bind_eq_ok.1 h
    obtain ⟨⟨i5, _⟩, h5, h⟩ := bind_eq_ok.1 h
    dsimp only at h2 h3 h5 h
    rw [foldl_add] at h
    simp only [Option.or_none, Outcome.ok.injEq, Prod.mk.injEq] at h
    obtain ⟨rfl, rfl⟩ := h
    have s1 := skipCfws_sat (c := c) (w ++ (CRLF ++ b :: t))
    rw [h1] at s1
    obtain ⟨g, e1, hg⟩ := s1
    have s2 := dispositionType_parses (A := aborts c) i1
    rw [h2] at s2
    obtain ⟨ty, e2, hty⟩ := s2
    have s5 := ignoreInlineCfws_parses (c := c) i3
    rw [h5] at s5
    obtain ⟨e, e5, he⟩ := s5
    obtain ⟨s, e3, hs, hend, -, hbe⟩ := items_end _ _ _ _ h3
    dsimp only at e2 e3 e5
    subst e5 e3 e2
    have ew : w = g ++ (ty ++ (s ++ e)) := by
      have : w ++ (CRLF ++ b :: t) = (g ++ (ty ++ (s ++ e))) ++ (CRLF ++ b :: t) := by rw [e1]; simp
      exact List.append_cancel_right this
    have hi' : Calm c (s ++ (e ++ (CRLF ++ b :: t))) := hi.infix ⟨g ++ ty, [], by rw [ew]; simp⟩
    have hs := hs hi'.fits.depth
    refine ⟨g, ty, type, s, items, q, e, ew, hg, hty, hs, ?_, ?_, he, rfl, (item_none hi'.right).mp hend⟩
    · refine (hbe hi').resolve_right (settled_noFold he hb ?_)
      exact hi'.right.left.fits.depth
    · obtain ⟨k1, -⟩ := items_small hs.star
      rw [← rawParam_paramOf]
      exact (collectParameters_spec (c := c) k1).1 q h4
  · rintro ⟨g, ty, type, s, items, q, e, rfl, hg, hty, hs, hbe, hq, he, rfl, hno⟩
    have hty := namedOr_written hty
    obtain ⟨hty1, hty2⟩ := writtenName_token (by decide +kernel) hty
    have hd := hi.fits.depth
    simp only [List.count_append] at hd
    have hg := gap_of_count (c := c) hg (by omega)
    have hps := items_stop (c := c) (t := b :: t) hs.begins he (by omega)
    have hcol := disposition_items hs.star hq fun h => by
      have := hi.fits.stars h
      simp only [List.count_append] at this
      omega
    have hi' : Calm c (s ++ (e ++ (CRLF ++ b :: t))) := hi.infix ⟨g ++ ty, [], by simp⟩
    have h1 := items_cut (c := c) (rest := e ++ (CRLF ++ b :: t)) hs (inlineCfws_stops he (by decide +kernel) (by decide) (stops_cons.mpr (by decide)))
      ((item_none hi'.right).mpr hno) _ hbe hi' (.inl rfl)
    have h2 := ignoreInlineCfws_append (c := c) he (by omega) (crlf_cfwsStop (r := b :: t))
    unfold contentDispositionValue
    simp only [List.append_assoc]
    rw [skipCfws_append hg (tokenChar_cfwsEnd hty1 hty2), ok_bind, dispositionType_append hty hps, ok_bind]
    dsimp only
    rw [h1, ok_bind]
    dsimp only
    rw [hcol, ok_bind, h2, ok_bind, foldl_add]
    simp only [Option.or_none]
    rfl

/-! ### Keywords -/

theorem atom_prefix {g x t r : Bytes} (h1 : Gap c g ()) (hne : x ≠ []) (hx : ∀ b ∈ x, atext b = true)
    (hst : Stops atext (t ++ r)) (hi : Calm c (t ++ r)) : ∃ y, atom c (g ++ (x ++ (t ++ r))) = .ok y := by
  have e1 := skipCfws_append (c := c) (r := x ++ (t ++ r)) h1 (atext_cfwsEnd hne hx)
  have e2 := takeWhile1_ok (r := t ++ r) hne hx hst
  obtain ⟨_, r', -, -, e3⟩ := hi.skip
  unfold atom
  simp only [e1, ok_bind, isAtext_eq, e2, Outcome.mapErr, e3]
  exact ⟨_, rfl⟩

theorem quoted_prefix {g x v t i : Bytes} (h1 : Gap c g ()) (hx : Quoted x v) (hi : Calm c (t ++ i)) :
    ∃ y, quotedString c (g ++ (x ++ (t ++ i))) = .ok y := by
  obtain ⟨_, _, _, rfl, rfl, s, _, vs, rfl, hs, f, _, fv, rfl, hf, _, _, _, rfl, rfl, rfl, rfl⟩ := hx
  obtain ⟨_, r', -, -, hr⟩ := hi.skip
  have e1 := skipCfws_append (c := c) (r := 34 :: (s ++ (f ++ 34 :: (t ++ i)))) h1
    (cfwsEnd_cons (by decide) (by decide) (by decide))
  have e2 := quotedStringLoop_append (r := t ++ i) hf ((s ++ (f ++ 34 :: (t ++ i))).length + 1) s vs
    (by simp; omega) hs
  have e3 := fwsOrEmpty_append (r := 34 :: (t ++ i)) hf (noSpace_cons (by decide) (by decide))
  have e : g ++ (b! "\"" ++ (s ++ (f ++ (b! "\"" ++ []))) ++ (t ++ i)) = g ++ (34 :: (s ++ (f ++ 34 :: (t ++ i)))) := by
    simp
  unfold quotedString
  rw [e]
  simp only [e1, ok_bind, startsWith_cons, if_true, sliceFrom_cons, e2, e3, hr]
  exact ⟨_, rfl⟩

theorem word_or_spaced {i : Bytes} (h : ∃ y, word c i = .ok y) : ∃ y, phraseWord c i = .ok y := by
  rw [phraseWord_eq]
  split
  · rcases spacedWord_cases (c := c) i with ⟨f, white, x, r', v', -, -, -, h1, -⟩ | ⟨⟨er, h1⟩, -⟩
    · exact ⟨_, by rw [matchParsers, h1]⟩
    · obtain ⟨y, hy⟩ := h
      exact ⟨y, by simp only [matchParsers, h1, hy]⟩
  · exact h

/-- What begins with a word is read as one. -/
theorem phraseWord_prefix {w e v : Bytes} (h : OneWord c e w v) (hi : Calm c (w ++ e)) :
    ∃ y, phraseWord c (w ++ e) = .ok y := by
  obtain ⟨q, h⟩ := h
  cases h with
  | atom h1 hp hne hx h2 hts hm hs =>
    rename_i g t s
    have hst : Stops atext (t ++ (s ++ e)) := by
      cases t with
      | nil => exact hts rfl
      | cons b t =>
        obtain ⟨o, ⟨e, -⟩ | ⟨⟨⟩, -, ht⟩⟩ := h2
        · cases e
        · obtain ⟨b', t', e, hb⟩ := cfws_head ht
          cases e
          exact stops_cons.mpr (space_not_atext b hb)
    simp only [List.append_assoc] at hi ⊢
    obtain ⟨y, hy⟩ := atom_prefix h1 hne hx hst hi.right.right
    exact word_or_spaced ⟨y, by rw [word, matchParsers, hy]⟩
  | quoted h1 hp hx h2 hs =>
    rename_i g x t s
    simp only [List.append_assoc] at hi ⊢
    obtain ⟨y, hy⟩ := quoted_prefix h1 hx hi.right.right
    obtain ⟨z, rfl⟩ := quoted_head hx
    have hc : CfwsEnd g (34 :: z ++ (t ++ (s ++ e))) := cfwsEnd_cons (by decide) (by decide) (by decide)
    obtain ⟨e', he⟩ := atom_err (c := c) h1 hc (stops_cons.mpr (by decide))
    refine word_or_spaced ⟨y, ?_⟩
    rw [word, matchParsers, he]
    dsimp only
    rw [matchParsers, hy]
  | encoded hm hf hp hw hs =>
    simp only [List.append_assoc]
    rw [phraseWord_eq, if_pos hm, matchParsers, spacedWord_append hf hw]
    exact ⟨_, rfl⟩

theorem phraseWord_absent {i : Bytes} (hi : Calm c i) :
    (∃ e, phraseWord c i = .err e) ↔ ¬ StartsIn (OneWord c) i := by
  constructor
  · rintro ⟨e, he⟩ ⟨w, r, v, rfl, hw⟩
    obtain ⟨y, hy⟩ := phraseWord_prefix hw hi
    rw [hy] at he
    cases he
  · intro h
    rcases hi.parse (phraseWord_parses (c := c)) with ⟨_, r, v, -, -, hw⟩ | h'
    · obtain ⟨w, q, e, -, hc⟩ := phraseWord_sound (p := false) hw hi (by simp)
      exact absurd ⟨w, r, v, e, q, by simpa using hc [] [] q r rfl .nil⟩ h
    · exact h'

theorem phraseLoop_cut {q : Bool} {r : Bytes} (he : ∃ e, phraseWord c r = .err e) :
    ∀ (fuel : Nat) (p : Bool) (w : Bytes) (vs : List Bytes), w.length < fuel → Phrases c r p w vs q →
      (q = true → CfwsEnd w r) → manyLoop (phraseWord c) fuel (w ++ r) = .ok (r, vs)
  | 0, _, _, _, h, _, _ => by omega
  | fuel + 1, p, w, [], h, hw, hr => by
    cases hw
    exact manyLoop_err he
  | fuel + 1, p, w, v :: vs, h, hw, hr => by
    obtain ⟨s, p', h1, h2, h3, u, rfl⟩ := phraseWord_phrases (g := []) hw (fun _ => rfl) (by simpa using hr)
    simp only [List.nil_append] at h1 h2
    unfold manyLoop
    rw [h1]
    dsimp only
    rw [phraseLoop_cut he fuel p' s vs (by omega) h2 fun hq => (hr hq).suffix]
    rfl

theorem phrase_cut {w r : Bytes} {vs : List Bytes} (h : KeywordCut c r w vs) (hi : Calm c (w ++ r))
    (hr : (∃ t, r = 44 :: t) ∨ ∃ b t, r = CRLF ++ b :: t ∧ wsp b = true) : phrase c (w ++ r) = .ok (r, vs) := by
  obtain ⟨hne, q, h, hq, hno⟩ := h
  have hend : q = true → CfwsEnd w r := by
    intro hq'
    rcases hr with ⟨t, rfl⟩ | ⟨b, t, rfl, hb⟩
    · exact cfwsEnd_cons (by decide) (by decide) (by decide)
    · rw [hq hq' b t rfl] at hb
      cases hb
  cases vs with
  | nil => exact absurd rfl hne
  | cons v vs =>
    obtain ⟨s, p', h1, h2, h3, u, rfl⟩ := phraseWord_phrases (g := []) h (fun _ => rfl) (by simpa using hend)
    simp only [List.nil_append] at h1 h2
    unfold phrase many1
    rw [h1]
    simp only [ok_bind]
    rw [phraseLoop_cut ((phraseWord_absent hi.right).mpr hno) _ p' s vs (by simp; omega) h2 fun hq => (hend hq).suffix]
    rfl

theorem manyLoop_until {p : Bytes → Res α} : ∀ {fuel : Nat} {i r : Bytes} {vs : List α},
    manyLoop p fuel i = .ok (r, vs) → ∃ e, p r = .err e
  | 0, _, _, _, h => by cases h
  | fuel + 1, i, r, vs, h => by
    unfold manyLoop at h
    cases hx : p i with
    | abort k => rw [hx] at h; cases h
    | err e => rw [hx] at h; cases h; exact ⟨_, hx⟩
    | ok a =>
      rw [hx] at h
      obtain ⟨⟨r', vs'⟩, h1, h⟩ := bind_eq_ok.1 h
      cases h
      exact manyLoop_until h1

theorem phrase_stop {i r : Bytes} {vs : List Bytes} (h : phrase c i = .ok (r, vs)) : ∃ e, phraseWord c r = .err e := by
  unfold phrase many1 at h
  obtain ⟨⟨j, v⟩, h1, h⟩ := bind_eq_ok.1 h
  obtain ⟨⟨r', vs'⟩, h2, h⟩ := bind_eq_ok.1 h
  cases h
  exact manyLoop_until h2

theorem keyword_sound {i r : Bytes} {vs : List Bytes} (hi : Calm c i) (h : phrase c i = .ok (r, vs)) :
    ∃ w, i = w ++ r ∧ KeywordCut c r w vs := by
  obtain ⟨w, q, rfl, hq, hw, hne⟩ := phrase_sound h hi
  refine ⟨w, rfl, hne, q, hw, fun hq' b t e => ?_, (phraseWord_absent hi.right).mp (phrase_stop h)⟩
  cases hb : wsp b with
  | false => rfl
  | true =>
    obtain ⟨_, he⟩ := (hq hq').fws_err
    obtain ⟨y, hy⟩ := fws_fold (a := []) (t := t) (by simp) hb
    rw [List.nil_append] at hy
    rw [e, hy] at he
    cases he

theorem commas_cut {L : Bytes → Bytes → α → Prop} {p : Bytes → Res α} {E : Bytes → Prop} (h44 : ∀ t, E (44 :: t))
    (hp : ∀ w v r, Calm c (w ++ r) → L r w v → E r → p (w ++ r) = .ok (r, v)) {w r : Bytes}
    {vs : List α} (h : CommasE L r w vs) (hr : E r) (ha : Stops (· == 44) r) : Calm c (w ++ r) →
    ∃ i v vs', vs = v :: vs' ∧ p (w ++ r) = .ok (i, v) ∧ i.length ≤ (w ++ r).length ∧
      ∀ fuel, i.length < fuel → manyLoop (fun input => prefixed input p (b! ",")) fuel i = .ok (r, vs') := by
  induction h with
  | one h =>
    rename_i w v
    intro hi
    refine ⟨r, v, [], rfl, hp _ _ _ hi h hr, by simp, fun fuel hf => ?_⟩
    cases fuel with
    | zero => omega
    | succ fuel => exact manyLoop_err (prefixed_err ha)
  | cons h _ ih =>
    rename_i w v s vs _
    intro hi
    have e : w ++ 44 :: s ++ r = w ++ 44 :: (s ++ r) := by simp
    obtain ⟨i, v', vs', rfl, h1, hi', h2⟩ := ih (hi.infix ⟨w ++ [44], [], by simp⟩)
    refine ⟨44 :: (s ++ r), v, v' :: vs', rfl, ?_, by simp, fun fuel hf => ?_⟩
    · rw [e]
      exact hp w v (44 :: (s ++ r)) (e ▸ hi) h (h44 _)
    · cases fuel with
      | zero => omega
      | succ fuel =>
        unfold manyLoop
        rw [prefixed_append, h1]
        dsimp only
        rw [h2 fuel (by simp at hf hi'; omega)]
        rfl

/-- Keywords are read up to a folded line end exactly as `KeywordCut` says. -/
theorem keywordList_cut {w t : Bytes} {b : UInt8} {vs : List (List Bytes)} (hb : wsp b = true)
    (hi : Calm c (w ++ (CRLF ++ b :: t))) :
    keywordList c (w ++ (CRLF ++ b :: t)) = .ok (CRLF ++ b :: t, vs) ↔ CommasE (KeywordCut c) (CRLF ++ b :: t) w vs := by
  constructor
  · intro h
    unfold keywordList at h
    obtain ⟨⟨j, v⟩, h1, h⟩ := bind_eq_ok.1 h
    obtain ⟨⟨r', vs⟩, h2, h⟩ := bind_eq_ok.1 h
    simp only [Outcome.ok.injEq, Prod.mk.injEq] at h
    obtain ⟨rfl, rfl⟩ := h
    obtain ⟨w', e, hw⟩ := commas_sound (fun i r v hi h => keyword_sound hi h) hi h1 h2
    obtain rfl := List.append_cancel_right e
    exact hw
  · intro h
    obtain ⟨i, v, vs, rfl, h1, -, h2⟩ := commas_cut (p := phrase c)
      (E := fun r => (∃ t, r = 44 :: t) ∨ ∃ b t, r = CRLF ++ b :: t ∧ wsp b = true) (fun t => .inl ⟨t, rfl⟩)
      (fun _ _ _ hi h hr => phrase_cut h hi hr) h (.inr ⟨b, t, rfl, hb⟩) (stops_cons.mpr (by decide)) hi
    unfold keywordList many
    simp only [h1, ok_bind, h2 _ (Nat.lt_succ_self _)]

end EmailParser
