import Verif.Spec.ExactPart
import Verif.Proofs.ExactMime
import Verif.Proofs.Features
import Verif.Proofs.Complete.Part
/-
`Content-Disposition` header lines: the parsers find the reading in which the parameters that can be dates are.
-/
namespace EmailParser
open Spec

variable {α : Type} {c : Cfg} {w t : Bytes}

/-! ### Parameters of any kind -/

/-- What follows a parameter: another one, or nothing. -/
def Begins (s : Bytes) : Prop := s = [] ∨ ∃ g r, s = g ++ (b! ";" ++ r) ∧ OptCfws g ()

theorem item_begins {v : DispositionItem} (h : DispositionParam w v) : ∃ g r, w = g ++ (b! ";" ++ r) ∧ OptCfws g () := by
  have hd : ∀ name d, DateParam name w d → ∃ g r, w = g ++ (b! ";" ++ r) ∧ OptCfws g () := by
    rintro name d ⟨g, _, _, rfl, hg, _, r, _, rfl, rfl, -⟩
    exact ⟨g, r, rfl, hg⟩
  rcases h with ⟨_, -, h⟩ | ⟨d, -, h⟩ | ⟨d, -, h⟩ | ⟨d, -, h⟩ | ⟨_, -, h, -⟩
  · obtain ⟨g, _, _, rfl, hg, _, r, _, rfl, rfl, -⟩ := h
    exact ⟨g, r, rfl, hg⟩
  · exact hd _ _ h
  · exact hd _ _ h
  · exact hd _ _ h
  · obtain ⟨g, _, _, rfl, hg, _, r, _, rfl, rfl, -⟩ := h
    exact ⟨g, r, rfl, hg⟩

theorem _root_.EmailParser.Spec.DatesFirst.begins {e s : Bytes} {vs : List DispositionItem} (h : DatesFirst e s vs) : Begins s := by
  cases h with
  | nil => exact .inl rfl
  | @cons w s _ _ hp _ _ =>
    obtain ⟨g, r, rfl, hg⟩ := item_begins hp
    exact .inr ⟨g, r ++ s, by simp, hg⟩

theorem items_start {g s e : Bytes} (hs : Begins s) (hg : Gap c g ())
    (he : InlineCfws e ()) (hd : (g ++ (s ++ e)).count 40 ≤ c.stack) (hl : NoWhiteLine (g ++ (s ++ e)))
    (ht : Stops Spec.wsp t) :
    ∃ j, skipCfws c (g ++ (s ++ (e ++ (CRLF ++ t)))) = .ok j ∧ skipCfws c j = .ok j ∧ (s = [] → Stops (· == 59) j) ∧
      (s ≠ [] → skipCfws c (s ++ (e ++ (CRLF ++ t))) = .ok j) := by
  rcases hs with rfl | ⟨w₁, w₂, rfl, hg1⟩
  · simp only [List.nil_append, List.count_append] at hd hl ⊢
    obtain ⟨ws, h1, h2⟩ := skipCfws_inline (t := t) hg he (by omega) hl ht
    have stop : ∀ b : UInt8, Spec.wsp b = true → (b == 40) = false ∧ (b == 59) = false := by decide +kernel
    refine ⟨_, h2, ?_, fun _ => ?_, fun h => absurd rfl h⟩
    · exact skipCfws_then (s := []) .nil (wsp_line_optional h1 ht) (by
        cases ws with
        | nil => exact stops_cons.mpr (by decide)
        | cons b ws => exact stops_cons.mpr (stop b (h1 b (by simp))).1)
    · cases ws with
      | nil => exact stops_cons.mpr (by decide)
      | cons b ws => exact stops_cons.mpr (stop b (h1 b (by simp))).2
  · have hg1 := gap_of_count (c := c) hg1 (by simp only [List.count_append] at hd; omega)
    have hj := gap_join hg hg1 (by
      simp only [← List.append_assoc] at hl
      simp only [List.append_assoc _ _ w₂, List.append_assoc _ _ e] at hl
      exact hl.left)
    have h1 := skipCfws_append (c := c) hj (semicolon_cfwsEnd (t := w₂ ++ (e ++ (CRLF ++ t))))
    have h2 := skipCfws_append (c := c) gap_nil (semicolon_cfwsEnd (t := w₂ ++ (e ++ (CRLF ++ t))))
    have h3 := skipCfws_append (c := c) hg1 (semicolon_cfwsEnd (t := w₂ ++ (e ++ (CRLF ++ t))))
    exact ⟨_, by simpa only [List.append_assoc, List.nil_append] using h1, h2,
      fun h => absurd h (by simp),
      fun _ => by simpa only [List.append_assoc, List.nil_append] using h3⟩

theorem items_stop {s e : Bytes} (hs : Begins s) (he : InlineCfws e ())
    (hd : s.count 40 ≤ c.stack) : Stops Spec.tokenChar (s ++ (e ++ (CRLF ++ t))) := by
  rcases hs with rfl | ⟨w₁, w₂, rfl, hg1⟩
  · exact inlineCfws_stops he (by decide +kernel) (by decide) (stops_cons.mpr (by decide))
  · have hg1 := gap_of_count (c := c) hg1 (by simp only [List.count_append] at hd; omega)
    simp only [List.append_assoc]
    exact gap_token hg1 (stops_cons.mpr (by decide))

/-- Where the reader is, after an item that ends with `g` and before the text `s`. -/
def AtItem (c : Cfg) (g s i : Bytes) : Prop := (g = [] ∧ i = s) ∨ skipCfws c (g ++ s) = .ok i

theorem value_reads {s e val value : Bytes} (hv : ParamText val value) (hs : Begins s) (he : InlineCfws e ())
    (hd : (val ++ (s ++ e)).count 40 ≤ c.stack) (hl : NoWhiteLine (val ++ (s ++ e))) (ht : Stops Spec.wsp t) :
    ∃ g i, parameterValue c (val ++ (s ++ (e ++ (CRLF ++ t)))) = .ok (i, value) ∧ Gap c g () ∧ g <:+ val ∧
      AtItem c g (s ++ (e ++ (CRLF ++ t))) i ∧ i.length ≤ (val ++ (s ++ (e ++ (CRLF ++ t)))).length := by
  have hd' := hd
  simp only [List.count_append] at hd'
  unfold parameterValue
  rcases hv with ⟨rfl, hv1, hv2⟩ | hv
  · have := token_append hv1 hv2 (items_stop (c := c) (t := t) hs he (by omega))
    refine ⟨[], _, by simp only [matchParsers, this, ok_bind], gap_nil, List.nil_suffix, .inl ⟨rfl, rfl⟩, ?_⟩
    simp only [List.length_append]
    omega
  · obtain ⟨q, g', rfl, hg', hq1, hq2, hq3⟩ := quotedString_then (c := c) hv (by omega)
    have hd3 : (g' ++ (s ++ e)).count 40 ≤ c.stack := by
      simp only [List.count_append] at hd' ⊢
      omega
    obtain ⟨j, hj1, -⟩ := items_start (c := c) (t := t) hs hg' he hd3 (hl.infix ⟨q, [], by simp⟩) ht
    have hq4 := hq3 _ _ hj1
    obtain ⟨x, hx⟩ : ∃ x, token (q ++ g' ++ (s ++ (e ++ (CRLF ++ t)))) = .err x := by
      unfold token
      rw [isTokenChar_eq]
      refine takeWhile1_err fun b u hb => hq1 b ?_ ?_
      · exact q.tail
      · cases q with
        | nil => exact absurd rfl hq2
        | cons b' q => cases hb; rfl
    refine ⟨g', j, by simp only [matchParsers, hx, hq4, err_bind], hg', List.suffix_append _ _, .inr hj1, ?_⟩
    have hsat := skipCfws_sat (c := c) (g' ++ (s ++ (e ++ (CRLF ++ t))))
    rw [hj1] at hsat
    obtain ⟨u, hu, -⟩ := hsat
    have hu := congrArg List.length hu
    simp only [List.length_append] at hu ⊢
    omega

/-- The parsers of items begin by skipping. -/
theorem dispositionItem_skip {i i' j : Bytes} (h : skipCfws c i = .ok j) (h' : skipCfws c i' = .ok j) :
    dispositionItem c i = dispositionItem c i' := by
  have h1 : filenameParameter c i = filenameParameter c i' := by
    unfold filenameParameter
    rw [h, h']
  have h2 : ∀ a b, dateParameter c i a b = dateParameter c i' a b := fun a b => by
    unfold dateParameter
    rw [h, h']
  have h3 : parameter c i = parameter c i' := by
    unfold parameter
    rw [h, h']
  simp only [dispositionItem, matchParsers, h1, h2, h3]

/-- Where there is no item. -/
theorem dispositionItem_none {i j : Bytes} (h : skipCfws c i = .ok j) (hs : Stops (· == 59) j) :
    ∃ x, dispositionItem c i = .err x := by
  simp only [dispositionItem, matchParsers, filenameParameter, dateParameter, parameter, h, ok_bind, semicolon_missing hs, err_bind]
  exact ⟨_, rfl⟩

/-! ### Dates -/

theorem dateParameter_reads {name name2 x r : Bytes} {d : DateTime} (h : DateParam name x d) (hn : name ∈ dateParams)
    (h2 : name2 = name.map swapCase) (hd : x.count 40 ≤ c.stack) : dateParameter c (x ++ r) name name2 = .ok (r, d) := by
  obtain ⟨g₁, _, _, rfl, hg1, _, _, _, rfl, rfl, g₂, _, _, rfl, hg2, n, _, _, rfl, hnm, _, _, _, rfl, rfl, dt, _, _, rfl, hdt,
    _, _, _, rfl, rfl, rfl, rfl⟩ := h
  have hnm : n.map asciiLower = name.map asciiLower := hnm
  simp only [List.count_append] at hd
  have hg1 := gap_of_count (c := c) hg1 (by omega)
  have hg2 := gap_of_count (c := c) hg2 (by omega)
  have hdt := dateTime_depth (c := c) hdt (by omega)
  have hne : name.map asciiLower ≠ [] ∧ ∀ b ∈ name.map asciiLower, Spec.tokenChar b = true := by
    have key : ∀ name ∈ dateParams, name.map asciiLower ≠ [] ∧ ∀ b ∈ name.map asciiLower, Spec.tokenChar b = true := by
      decide +kernel
    exact key name hn
  subst h2
  unfold dateParameter
  simp only [List.append_assoc, List.append_nil]
  rw [skipCfws_append hg1 semicolon_cfwsEnd]
  simp only [ok_bind, tag_append]
  rw [skipCfws_append hg2 (name_cfwsEnd hnm hne.1 hne.2)]
  simp only [ok_bind]
  rw [tagNoCase_append _ _ hnm]
  simp only [ok_bind, tag_append]
  rw [dateTime_append (r := b! "\"" ++ r) hdt (cfwsEnd_cons (b := 34) (by decide) (by decide) (by decide))]
  simp only [ok_bind, tag_append]

/-- A parser of parameters that expects another name. -/
theorem parameter_other {x g₁ g₂ n r : Bytes} (hx : x = g₁ ++ (b! ";" ++ (g₂ ++ (n ++ r)))) (hg1 : Gap c g₁ ())
    (hg2 : Gap c g₂ ()) {b : UInt8} {s : Bytes} (hb : n = b :: s)
    (hc : ∀ t, CfwsEnd g₂ (n ++ t)) :
    (asciiLower b ≠ 102 → ∃ e, filenameParameter c x = .err e) ∧
    ∀ k ks name2, name2 = (k :: ks).map swapCase → asciiLower b ≠ asciiLower k → ∃ e, dateParameter c x (k :: ks) name2 = .err e := by
  subst hx
  constructor
  · intro h
    exact filenameParameter_other hg1 hg2 (hc r) (by
      rw [hb]
      rintro ⟨u, hu⟩
      simp at hu
      exact h hu.1.symm)
  · intro k ks name2 h2 h
    exact dateParameter_other hg1 hg2 (hc r) h2 (by
      rw [hb]
      rintro ⟨u, hu⟩
      simp at hu
      exact h hu.1.symm)

/-! ### Items -/

theorem filename_reads {s e x v : Bytes} (hx : DispositionParam x (.filename v)) (hs : Begins s) (he : InlineCfws e ())
    (hd : (x ++ (s ++ e)).count 40 ≤ c.stack) (hl : NoWhiteLine (x ++ (s ++ e))) (ht : Stops Spec.wsp t) :
    ∃ g i, dispositionItem c (x ++ (s ++ (e ++ (CRLF ++ t)))) = .ok (i, .filename v) ∧ Gap c g () ∧ g <:+ x ∧
      AtItem c g (s ++ (e ++ (CRLF ++ t))) i := by
  rcases hx with ⟨_, h, hx⟩ | ⟨_, h, -⟩ | ⟨_, h, -⟩ | ⟨_, h, -⟩ | ⟨_, h, -⟩ <;> cases h
  obtain ⟨g₁, _, _, rfl, hg1, _, _, _, rfl, rfl, g₂, _, _, rfl, hg2, n, _, _, rfl, hnm, _, val, _, rfl, rfl, hv⟩ := hx
  have hnm : n.map asciiLower = (b! "filename").map asciiLower := hnm
  have hd' := hd
  simp only [List.count_append] at hd'
  have hg1 := gap_of_count (c := c) hg1 (by omega)
  have hg2 := gap_of_count (c := c) hg2 (by omega)
  obtain ⟨g, i, h1, h2, h3, h4, -⟩ := value_reads (c := c) (t := t) hv hs he (by simp only [List.count_append]; omega)
    (hl.infix ⟨g₁ ++ (b! ";" ++ (g₂ ++ (n ++ b! "="))), [], by simp⟩) ht
  refine ⟨g, i, ?_, h2, ?_, h4⟩
  · have hf : filenameParameter c (g₁ ++ (b! ";" ++ (g₂ ++ (n ++ (b! "=" ++ (val ++ (s ++ (e ++ (CRLF ++ t)))))))) ) = .ok (i, v) := by
      unfold filenameParameter
      rw [skipCfws_append hg1 semicolon_cfwsEnd]
      simp only [ok_bind, tag_append]
      rw [skipCfws_append hg2 (name_cfwsEnd hnm (by decide) (by decide +kernel))]
      simp only [ok_bind]
      rw [show (b! "FILENAME") = (b! "filename").map swapCase by decide +kernel, tagNoCase_append _ _ hnm]
      simp only [ok_bind, tag_append, h1]
    unfold dispositionItem
    simp only [List.append_assoc, matchParsers, hf, ok_bind]
  · obtain ⟨u, hu⟩ := h3
    exact ⟨g₁ ++ (b! ";" ++ (g₂ ++ (n ++ (b! "=" ++ u)))), by simp [← hu]⟩

theorem date_reads {x r name : Bytes} {d : DateTime} (h : DateParam name x d) (hn : name ∈ dateParams)
    (hd : x.count 40 ≤ c.stack) :
    dispositionItem c (x ++ r) = .ok (r, if name = b! "creation-date" then .creationDate d else
      if name = b! "modification-date" then .modificationDate d else .readDate d) := by
  have hr := fun n2 h2 => dateParameter_reads (c := c) (name2 := n2) (r := r) h hn h2 hd
  obtain ⟨g₁, _, _, rfl, hg1, _, _, _, rfl, rfl, g₂, _, _, rfl, hg2, n, u, _, rfl, hnm, -⟩ := h
  have hnm : n.map asciiLower = name.map asciiLower := hnm
  simp only [List.count_append] at hd
  have hg1 := gap_of_count (c := c) hg1 (by omega)
  have hg2 := gap_of_count (c := c) hg2 (by omega)
  have hne : name.map asciiLower ≠ [] ∧ (∀ b ∈ name.map asciiLower, Spec.tokenChar b = true) ∧ name ≠ [] := by
    have key : ∀ name ∈ dateParams, name.map asciiLower ≠ [] ∧ (∀ b ∈ name.map asciiLower, Spec.tokenChar b = true) ∧ name ≠ [] := by
      decide +kernel
    exact key name hn
  have hc : ∀ t, CfwsEnd g₂ (n ++ t) := fun t => name_cfwsEnd hnm hne.1 hne.2.1
  cases n with
  | nil => exact absurd hnm.symm hne.1
  | cons b s =>
    obtain ⟨o1, o2⟩ := parameter_other (c := c) (r := u ++ r) rfl hg1 hg2 (b := b) (s := s) rfl hc
    have e : g₁ ++ (b! ";" ++ (g₂ ++ ((b :: s) ++ (u ++ r)))) = g₁ ++ (b! ";" ++ (g₂ ++ ((b :: s) ++ u))) ++ r := by simp
    rw [e] at o1 o2
    unfold dispositionItem
    simp only [dateParams, List.mem_cons, List.not_mem_nil, or_false] at hn
    rcases hn with rfl | rfl | rfl
    · have hb : asciiLower b = asciiLower 99 := by simpa using congrArg List.head? hnm
      obtain ⟨_, e1⟩ := o1 (by rw [hb]; decide)
      simp only [matchParsers, e1, err_bind, hr (b! "CREATION-DATE") (by decide +kernel), ok_bind]
      rfl
    · have hb : asciiLower b = asciiLower 109 := by simpa using congrArg List.head? hnm
      obtain ⟨_, e1⟩ := o1 (by rw [hb]; decide)
      obtain ⟨_, e2⟩ := o2 99 (b! "reation-date") (b! "CREATION-DATE") (by decide +kernel) (by rw [hb]; decide)
      have e2 : dateParameter c _ (b! "creation-date") _ = _ := e2
      simp only [matchParsers, e1, e2, err_bind, hr (b! "MODIFICATION-DATE") (by decide +kernel), ok_bind]
      rfl
    · have hb : asciiLower b = asciiLower 114 := by simpa using congrArg List.head? hnm
      obtain ⟨_, e1⟩ := o1 (by rw [hb]; decide)
      obtain ⟨_, e2⟩ := o2 99 (b! "reation-date") (b! "CREATION-DATE") (by decide +kernel) (by rw [hb]; decide)
      obtain ⟨_, e3⟩ := o2 109 (b! "odification-date") (b! "MODIFICATION-DATE") (by decide +kernel) (by rw [hb]; decide)
      have e2 : dateParameter c _ (b! "creation-date") _ = _ := e2
      have e3 : dateParameter c _ (b! "modification-date") _ = _ := e3
      simp only [matchParsers, e1, e2, e3, err_bind, hr (b! "READ-DATE") (by decide +kernel), ok_bind]
      rfl

/-- A name of a parameter without star. -/
theorem paramName_plain {n : Bytes} {v : Bytes × Option Nat × Bool} (h : ParamName n v) (hn : 42 ∉ n) : v = (n, none, false) := by
  rcases h with ⟨n', _, name, rfl, ⟨rfl, -⟩, w₂, w₃, idx, rfl, h₂, h₃⟩ | ⟨-, -, h⟩
  · obtain ⟨e, ⟨o, rfl, h4⟩, heq⟩ := gram_bind_pure.mp h₃
    rcases h₂ with ⟨rfl, rfl⟩ | ⟨a, rfl, ha⟩
    · rcases h4 with ⟨rfl, rfl⟩ | ⟨a, rfl, ha⟩
      · rw [heq]
        simp
      · have : w₃ = b! "*" := ha
        simp [this] at hn
    · obtain ⟨_, _, _, rfl, rfl, -⟩ := ha
      simp at hn
  · exact h

theorem filenameParameter_none {g₁ g₂ n r : Bytes} {v : Bytes × Option Nat × Bool} (hg1 : Gap c g₁ ()) (hg2 : Gap c g₂ ())
    (hn : ParamName n v) (hv : ¬ (v.1.map asciiLower = b! "filename" ∧ v.2.1 = none ∧ v.2.2 = false)) :
    ∃ e, filenameParameter c (g₁ ++ (b! ";" ++ (g₂ ++ (n ++ (b! "=" ++ r))))) = .err e := by
  obtain ⟨-, hne, htok⟩ := paramName_reads (r := r) hn
  unfold filenameParameter
  rw [skipCfws_append hg1 semicolon_cfwsEnd]
  simp only [ok_bind, tag_append]
  rw [skipCfws_append hg2 (tokenChar_cfwsEnd hne htok)]
  simp only [ok_bind]
  by_cases hp : (b! "filename").map asciiLower <+: (n ++ (b! "=" ++ r)).map asciiLower
  · have hp := prefix_class (p := Spec.tokenChar) (by decide +kernel) (by decide +kernel)
      (stops_cons.mpr (by decide)) hp
    obtain ⟨v', hv'⟩ := hp
    obtain ⟨u, y, rfl, hu, -⟩ := List.map_eq_append_iff.mp hv'.symm
    rw [show (b! "FILENAME") = (b! "filename").map swapCase by decide +kernel, List.append_assoc, tagNoCase_append _ _ hu]
    simp only [ok_bind]
    have hy : Stops (· == 61) (y ++ (b! "=" ++ r)) := by
      cases y with
      | nil =>
        refine absurd ?_ hv
        rw [List.append_nil] at hn
        have h42 : 42 ∉ u := fun h => by
          have := List.mem_map_of_mem (f := asciiLower) h
          rw [hu] at this
          exact absurd this (by decide +kernel)
        rw [paramName_plain hn h42]
        exact ⟨hu, rfl, rfl⟩
      | cons b y =>
        refine stops_cons.mpr ?_
        have key : ∀ b : UInt8, Spec.tokenChar b = true → (b == 61) = false := by decide +kernel
        exact key b (htok b (by simp))
    rw [equals_missing hy]
    exact ⟨_, rfl⟩
  · obtain ⟨x, h⟩ := tagNoCase_err (i := n ++ (b! "=" ++ r)) (e := b! "filename") (e2 := b! "FILENAME")
      (m := "TAG NO CASE ERROR: In a Content-Disposition header, the name of the parameter does not match a filename parameter.")
      (by decide +kernel) hp
    rw [h]
    exact ⟨_, rfl⟩

theorem parameter_reads {s e x : Bytes} {p : RawParam} (hx : DispositionParam x (.parameter p)) (hs : Begins s)
    (he : InlineCfws e ()) (hd : (x ++ (s ++ e)).count 40 ≤ c.stack) (hl : NoWhiteLine (x ++ (s ++ e))) (ht : Stops Spec.wsp t)
    (hdates : ∀ name ∈ dateParams, ∃ y, dateParameter c (x ++ (s ++ (e ++ (CRLF ++ t)))) name (name.map swapCase) = .err y) :
    ∃ g i, dispositionItem c (x ++ (s ++ (e ++ (CRLF ++ t)))) = .ok (i, .parameter p) ∧ Gap c g () ∧ g <:+ x ∧
      AtItem c g (s ++ (e ++ (CRLF ++ t))) i := by
  rcases hx with ⟨_, h, -⟩ | ⟨_, h, -⟩ | ⟨_, h, -⟩ | ⟨_, h, -⟩ | ⟨_, h, hx, hno⟩ <;> cases h
  obtain ⟨g₁, _, _, rfl, hg1, _, _, _, rfl, rfl, g₂, _, _, rfl, hg2, n, _, ⟨name, index, encoded⟩, rfl, hn, _, _, _, rfl, rfl,
    val, _, value, rfl, hv, rfl, rfl⟩ := hx
  have hd' := hd
  simp only [List.count_append] at hd'
  have hg1 := gap_of_count (c := c) hg1 (by omega)
  have hg2 := gap_of_count (c := c) hg2 (by omega)
  rw [List.append_nil] at hl
  obtain ⟨g, i, h1, h2, h3, h4, -⟩ := value_reads (c := c) (t := t) hv hs he (by simp only [List.count_append]; omega)
    (hl.infix ⟨g₁ ++ (b! ";" ++ (g₂ ++ (n ++ b! "="))), [], by simp⟩) ht
  refine ⟨g, i, ?_, h2, ?_, h4⟩
  · obtain ⟨hname, hne, htok⟩ := paramName_reads (r := val ++ (s ++ (e ++ (CRLF ++ t)))) hn
    obtain ⟨_, e1⟩ := filenameParameter_none (c := c) (r := val ++ (s ++ (e ++ (CRLF ++ t)))) hg1 hg2 hn hno
    obtain ⟨_, e2⟩ := hdates (b! "creation-date") (by decide)
    obtain ⟨_, e3⟩ := hdates (b! "modification-date") (by decide)
    obtain ⟨_, e4⟩ := hdates (b! "read-date") (by decide)
    have e5 : parameter c (g₁ ++ (b! ";" ++ (g₂ ++ (n ++ (b! "=" ++ (val ++ (s ++ (e ++ (CRLF ++ t))))))))) =
        .ok (i, { name := name.map asciiLower, index := index, encoded := encoded, value := value }) := by
      unfold parameter
      rw [skipCfws_append hg1 semicolon_cfwsEnd]
      simp only [ok_bind, tag_append]
      rw [skipCfws_append hg2 (tokenChar_cfwsEnd hne htok)]
      simp only [ok_bind, hname, tag_append, h1]
      rfl
    rw [show (b! "creation-date").map swapCase = b! "CREATION-DATE" by decide +kernel] at e2
    rw [show (b! "modification-date").map swapCase = b! "MODIFICATION-DATE" by decide +kernel] at e3
    rw [show (b! "read-date").map swapCase = b! "READ-DATE" by decide +kernel] at e4
    simp only [List.append_assoc, List.append_nil] at e2 e3 e4
    unfold dispositionItem
    simp only [List.append_assoc, List.append_nil, matchParsers, e1, e2, e3, e4, e5, err_bind, ok_bind]
  · obtain ⟨u, hu⟩ := h3
    exact ⟨g₁ ++ (b! ";" ++ (g₂ ++ (n ++ (b! "=" ++ u)))), by simp [← hu]⟩

/-- A text that does not begin with a date is not read as one. -/
theorem date_missing {x : Bytes} (h : ¬ BeginsWithDate x) (hf : Fits c x) {name : Bytes} (hn : name ∈ dateParams) :
    ∃ y, dateParameter c (x ++ CRLF) name (name.map swapCase) = .err y := by
  have hs := dateParameter_parses (c := c) (name := name) rfl (x ++ CRLF)
  dsimp only at hs
  cases hx : dateParameter c (x ++ CRLF) name (name.map swapCase) with
  | err y => exact ⟨y, rfl⟩
  | abort k =>
    rw [hx] at hs
    exfalso
    have c40 : (x ++ CRLF).count 40 = x.count 40 := by simp [List.count_append, CRLF]
    have c42 : (x ++ CRLF).count 42 = x.count 42 := by simp [List.count_append, CRLF]
    rcases hs with ⟨-, hs⟩ | ⟨-, ho, -, hs⟩
    · rw [c40] at hs
      have := hf.depth
      omega
    · rw [c42] at hs
      have := hf.stars ho
      omega
  | ok a =>
    obtain ⟨r, d⟩ := a
    rw [hx] at hs
    obtain ⟨x', e, hd⟩ := hs
    refine absurd ?_ h
    have hend : ∃ y, x' = y ++ [34] := by
      obtain ⟨g₁, _, _, rfl, hg1, _, _, _, rfl, rfl, g₂, _, _, rfl, hg2, n, _, _, rfl, hnm, _, _, _, rfl, rfl, dt, _, _, rfl, hdt,
        _, _, _, rfl, rfl, rfl, rfl⟩ := hd
      exact ⟨g₁ ++ (b! ";" ++ (g₂ ++ (n ++ (b! "=\"" ++ dt)))), by simp⟩
    dsimp only at e
    rcases List.append_eq_append_iff.mp e with ⟨a, h1, h2⟩ | ⟨a, h1, h2⟩
    · cases ha : a with
      | nil => exact ⟨name, hn, x', [], d, by rw [h1, ha]; simp, hd⟩
      | cons b a' =>
        exfalso
        obtain ⟨y, rfl⟩ := hend
        have hm : (34 : UInt8) ∈ a := by
          have := congrArg List.getLast? h1
          rw [List.getLast?_append, List.getLast?_append, ha] at this
          simp only [List.getLast?_singleton, Option.some_or] at this
          cases hg : (b :: a').getLast? with
          | none => simp at hg
          | some z =>
            rw [hg] at this
            cases this
            rw [ha]
            exact List.mem_of_getLast? hg
        have : (34 : UInt8) ∈ CRLF := by rw [h2]; simp [hm]
        exact absurd this (by decide)
    · exact ⟨name, hn, x', a, d, h1, hd⟩

theorem item_reads {s e x : Bytes} {v : DispositionItem} (hx : DispositionParam x v) (hs : Begins s)
    (he : InlineCfws e ()) (hf : Fits c (x ++ (s ++ e))) (hl : NoWhiteLine (x ++ (s ++ e)))
    (hno : ∀ p, v = .parameter p → ¬ BeginsWithDate (x ++ (s ++ e))) :
    ∃ g i, dispositionItem c (x ++ (s ++ (e ++ CRLF))) = .ok (i, v) ∧ Gap c g () ∧ g <:+ x ∧
      AtItem c g (s ++ (e ++ CRLF)) i := by
  have hd := hf.depth
  have date : ∀ name d, name ∈ dateParams → DateParam name x d →
      v = (if name = b! "creation-date" then .creationDate d else
        if name = b! "modification-date" then .modificationDate d else .readDate d) →
      ∃ g i, dispositionItem c (x ++ (s ++ (e ++ CRLF))) = .ok (i, v) ∧ Gap c g () ∧ g <:+ x ∧
        AtItem c g (s ++ (e ++ CRLF)) i := by
    rintro name d hn h rfl
    exact ⟨[], _, date_reads h hn (by simp only [List.count_append] at hd; omega), gap_nil, List.nil_suffix, .inl ⟨rfl, rfl⟩⟩
  have hx' := hx
  rcases hx' with ⟨v, rfl, -⟩ | ⟨d, rfl, h⟩ | ⟨d, rfl, h⟩ | ⟨d, rfl, h⟩ | ⟨p, rfl, -, -⟩
  · have := filename_reads (c := c) (t := []) hx hs he hd hl stops_nil
    simpa only [List.append_nil] using this
  · exact date _ d (by decide) h rfl
  · exact date _ d (by decide) h rfl
  · exact date _ d (by decide) h rfl
  · have := parameter_reads (c := c) (t := []) hx hs he hd hl stops_nil fun name hn => by
      have := date_missing (hno p rfl) hf hn
      simpa only [List.append_nil, List.append_assoc] using this
    simpa only [List.append_nil] using this

theorem _root_.EmailParser.Spec.Fits.infix {x y : Bytes} (h : Fits c y) (hx : x <:+: y) : Fits c x :=
  ⟨Nat.le_trans (hx.sublist.count_le 40) h.depth, fun ho => Nat.lt_of_le_of_lt (hx.sublist.count_le 42) (h.stars ho)⟩

/-- Items are read one after the other. -/
theorem items_read {s e : Bytes} {vs : List DispositionItem} (hs : DatesFirst e s vs) (he : InlineCfws e ()) :
    ∀ (g i : Bytes), Gap c g () → Fits c (g ++ (s ++ e)) → NoWhiteLine (g ++ (s ++ e)) → AtItem c g (s ++ (e ++ CRLF)) i →
      ∃ r, many i (dispositionItem c) = .ok (r, vs) ∧ ignoreInlineCfws c r = .ok (CRLF, ()) := by
  induction hs with
  | nil =>
    intro g i hg hf hl hi
    obtain ⟨j, h1, h2, h3, -⟩ := items_start (t := []) (.inl rfl) hg he hf.depth hl stops_nil
    simp only [List.nil_append, List.append_nil] at hf hl hi h1
    have hskip : skipCfws c i = .ok j := by
      rcases hi with ⟨rfl, rfl⟩ | hi
      · exact h1
      · rw [h1] at hi
        cases hi
        exact h2
    refine ⟨i, many_err (dispositionItem_none hskip (h3 rfl)), ?_⟩
    have hd := hf.depth
    rw [List.count_append] at hd
    rcases hi with ⟨rfl, rfl⟩ | hi
    · have := ignoreInlineCfws_append (c := c) (r := CRLF ++ []) he (by omega) crlf_cfwsStop
      simpa only [List.append_nil] using this
    · obtain ⟨ws, h3, h4⟩ := skipCfws_inline (t := []) hg he (by omega) hl stops_nil
      rw [List.append_nil, hi] at h4
      cases h4
      have := ignoreInlineCfws_append (c := c) (w := ws) (r := CRLF ++ [])
        ⟨ws, [], ws, by simp, ⟨rfl, h3⟩, [], [], none, rfl, .inl ⟨rfl, rfl⟩, [], [], [], rfl, ⟨rfl, by simp⟩, rfl, rfl⟩ (by
          rw [List.count_eq_zero.mpr]
          · omega
          · exact fun h => absurd (h3 40 h) (by decide)) crlf_cfwsStop
      simpa only [List.append_nil] using this
  | @cons x s v vs hx hno hs ih =>
    intro g i hg hf hl hi
    rw [List.append_assoc] at hf hl hi
    have hb : Begins (x ++ s) := by
      obtain ⟨g, r, rfl, hg⟩ := item_begins hx
      exact .inr ⟨g, r ++ s, by simp, hg⟩
    have hne : x ++ s ≠ [] := by
      obtain ⟨g, r, rfl, -⟩ := item_begins hx
      simp
    obtain ⟨j, h1, h2, -, h3⟩ := items_start (t := []) hb hg he (by rw [List.append_assoc]; exact hf.depth)
      (by rw [List.append_assoc]; exact hl) stops_nil
    have h3 := h3 hne
    simp only [List.append_assoc, List.append_nil] at h1 h3
    have hskip : skipCfws c i = .ok j := by
      rcases hi with ⟨rfl, rfl⟩ | hi
      · exact h1
      · rw [h1] at hi
        cases hi
        exact h2
    obtain ⟨g', i', k1, k2, k3, k4⟩ := item_reads (c := c) hx hs.begins he (hf.infix ⟨g, [], by simp⟩) (hl.infix ⟨g, [], by simp⟩) hno
    have k1' := k1
    rw [dispositionItem_skip h3 hskip] at k1
    obtain ⟨u, hu⟩ := k3
    obtain ⟨r, r1, r2⟩ := ih g' i' k2 (hf.infix ⟨g ++ u, [], by simp [← hu]⟩) (hl.infix ⟨g ++ u, [], by simp [← hu]⟩) k4
    refine ⟨r, many_cons k1 ?_ r1, r2⟩
    have hs := dispositionItem_parses (c := c) i
    rw [k1] at hs
    obtain ⟨x', e', hx'⟩ := hs
    have := List.length_pos_iff.mpr (dispositionItem_progress _ _ hx')
    have e' := congrArg List.length e'
    simp only [List.length_append] at e'
    omega

theorem _root_.EmailParser.Spec.DatesFirst.star {e s : Bytes} {vs : List DispositionItem} (h : DatesFirst e s vs) : Gram.star DispositionParam s vs := by
  induction h with
  | nil => exact .nil
  | cons h _ _ ih => exact .cons h ih

/-- An item that is no date is not where a date can be read. -/
theorem item_not_date {i r : Bytes} {p : RawParam} (h : dispositionItem c i = .ok (r, .parameter p)) {name : Bytes} (hn : name ∈ dateParams)
    (x s : Bytes) (d : DateTime) (e : i = x ++ s) (hd : x.count 40 ≤ c.stack) : ¬ DateParam name x d := by
  intro hx
  subst e
  rw [date_reads hx hn hd] at h
  split at h
  · cases h
  · split at h <;> cases h

theorem items_sound {e t : Bytes} : ∀ (fuel : Nat) (i : Bytes) (vs : List DispositionItem),
    manyLoop (dispositionItem c) fuel i = .ok (e ++ t, vs) → ∃ s, i = s ++ (e ++ t) ∧ ((s ++ e).count 40 ≤ c.stack → DatesFirst e s vs)
  | 0, i, vs, h => by cases h
  | fuel + 1, i, vs, h => by
    unfold manyLoop at h
    cases hx : dispositionItem c i with
    | abort k => rw [hx] at h; cases h
    | err y =>
      rw [hx] at h
      cases h
      exact ⟨[], by simp, fun _ => .nil⟩
    | ok a =>
      obtain ⟨r, v⟩ := a
      rw [hx] at h
      dsimp only at h
      obtain ⟨⟨r', vs'⟩, h1, h2⟩ := bind_eq_ok.1 h
      cases h2
      obtain ⟨s, rfl, hs⟩ := items_sound fuel r vs' h1
      have hp := dispositionItem_parses (c := c) i
      rw [hx] at hp
      obtain ⟨x, rfl, hp⟩ := hp
      refine ⟨x ++ s, by simp, fun hd => ?_⟩
      simp only [List.count_append] at hd
      refine .cons hp ?_ (hs (by rw [List.count_append]; omega))
      rintro p rfl ⟨name, hn, y, z, d, e1, hy⟩
      have hc := congrArg (List.count 40) e1
      simp only [List.count_append] at hc
      refine item_not_date hx hn y (z ++ t) d ?_ (by omega) hy
      have := congrArg (· ++ t) e1
      simpa only [List.append_assoc] using this

/-! ### The value of the header -/

theorem rawParam_paramOf : DispositionItem.rawParam? = paramOf := by
  funext x
  cases x <;> rfl

theorem disposition_items {s : Bytes} {vs : List DispositionItem} {q : Params} (hs : Gram.star DispositionParam s vs)
    (hq : ∀ name, ParamValue c (vs.filterMap paramOf) name (q name))
    (hn : c.overflowChecks = true → s.count 42 < 256) :
    collectParameters c (vs.filterMap DispositionItem.rawParam?) = .ok q := by
  obtain ⟨h1, h2⟩ := items_small hs
  obtain ⟨h3, h4, h5⟩ := collectParameters_spec (c := c) h1
  rw [← rawParam_paramOf] at hq
  cases hx : collectParameters c (vs.filterMap DispositionItem.rawParam?) with
  | ok q' =>
    congr 1
    exact funext fun name => paramValue_unique (h3 q' hx name) (hq name)
  | err x =>
    obtain ⟨name, hname⟩ := h4 x hx
    exact absurd (hq name) (hname _)
  | abort k =>
    obtain ⟨-, ho, name, ha⟩ := h5 k hx
    have := allSegments_count ha
    have := hn ho
    omega

theorem dispositionValue_reads {v : Disposition} (h : DispositionL c w v) (hf : Fits c w) (hl : NoWhiteLine w) :
    contentDispositionValue c (w ++ CRLF) = .ok (CRLF, v) := by
  obtain ⟨g, ty, type, s, items, q, e, rfl, hg, hty, hs, hq, he, rfl⟩ := h
  have hty := namedOr_written hty
  obtain ⟨hty1, hty2⟩ := writtenName_token (by decide +kernel) hty
  have hd := hf.depth
  simp only [List.count_append] at hd
  have hg := gap_of_count (c := c) hg (by omega)
  have hps := items_stop (c := c) (t := []) hs.begins he (by omega)
  rw [List.append_nil] at hps
  have hcol := disposition_items hs.star hq fun h => by
    have := hf.stars h
    simp only [List.count_append] at this
    omega
  obtain ⟨r, h1, h2⟩ := items_read (c := c) hs he [] _ gap_nil (hf.infix ⟨g ++ ty, [], by simp⟩)
    (hl.infix ⟨g ++ ty, [], by simp⟩) (.inl ⟨rfl, rfl⟩)
  unfold contentDispositionValue
  simp only [List.append_assoc]
  rw [skipCfws_append hg (tokenChar_cfwsEnd hty1 hty2), ok_bind, dispositionType_append hty hps, ok_bind]
  dsimp only
  rw [h1, ok_bind]
  dsimp only
  rw [hcol, ok_bind, h2, ok_bind, foldl_add]
  simp only [Option.or_none]
  rfl

theorem dispositionValue_sound {v : Disposition} {t : Bytes}
    (h : contentDispositionValue c (w ++ (CRLF ++ t)) = .ok (CRLF ++ t, v))
    (hd : w.count 40 ≤ c.stack) : DispositionL c w v := by
  unfold contentDispositionValue at h
  obtain ⟨i1, h1, h⟩ := bind_eq_ok.1 h
  obtain ⟨⟨i2, type⟩, h2, h⟩ := bind_eq_ok.1 h
  obtain ⟨⟨i3, items⟩, h3, h⟩ := bind_eq_ok.1 h
  obtain ⟨q, h4, h⟩ := bind_eq_ok.1 h
  obtain ⟨⟨i5, _⟩, h5, h⟩ := bind_eq_ok.1 h
  dsimp only at h2 h3 h5 h
  rw [foldl_add] at h
  simp only [Option.or_none, Outcome.ok.injEq, Prod.mk.injEq] at h
  obtain ⟨rfl, rfl⟩ := h
  have s1 := skipCfws_sat (c := c) (w ++ (CRLF ++ t))
  rw [h1] at s1
  obtain ⟨g, e1, hg⟩ := s1
  have s2 := dispositionType_parses (A := aborts c) i1
  rw [h2] at s2
  obtain ⟨ty, e2, hty⟩ := s2
  have s5 := ignoreInlineCfws_parses (c := c) i3
  rw [h5] at s5
  obtain ⟨e, e5, he⟩ := s5
  dsimp only at e2 e5
  subst e5
  obtain ⟨s, e3, hs⟩ := items_sound _ _ _ h3
  subst e3 e2
  have ew : w = g ++ (ty ++ (s ++ e)) := by
    have : w ++ (CRLF ++ t) = (g ++ (ty ++ (s ++ e))) ++ (CRLF ++ t) := by rw [e1]; simp
    exact List.append_cancel_right this
  rw [ew] at hd
  simp only [List.count_append] at hd
  have hs := hs (by rw [List.count_append]; omega)
  refine ⟨g, ty, type, s, items, q, e, ew, hg, hty, hs, ?_, he, rfl⟩
  obtain ⟨k1, -⟩ := items_small hs.star
  rw [← rawParam_paramOf]
  exact (collectParameters_spec (c := c) k1).1 q h4

/-! ### Header lines of parts -/

theorem entityHeader_named {n i : Bytes} {p : Bytes → Res EntityHeader} (hm : (n, p) ∈ partTable c)
    (hn : (n ++ b! ":") <+: i.map asciiLower) :
    entityHeader c i = matchParsers i [p, mapValue (fun (name, value) => .other name value) (unknown c)] := by
  have hd := partTable_nodup (c := c)
  have ho : ∀ e ∈ partTable c, e.1 ≠ n → ∃ x, e.2 i = .err x := by
    intro e he hne
    refine partTable_other e he fun hp => hne ?_
    obtain ⟨t, ht⟩ := hn
    rw [← ht] at hp
    exact prefix_name (partTable_names _ hm).2 (partTable_names e he).2 hp
  rw [entityHeader_table]
  obtain ⟨l, l', e⟩ := List.append_of_mem hm
  rw [e] at hd ho ⊢
  simp only [List.map_append, List.map_cons, List.nodup_append, List.nodup_cons, List.mem_cons] at hd
  rw [List.map_append, List.map_cons, List.append_assoc, matchParsers_skip, List.cons_append]
  · rw [matchParsers, matchParsers, matchParsers_skip]
    intro p hp
    obtain ⟨e, he, rfl⟩ := List.mem_map.mp hp
    exact ho e (by simp [he]) fun h' => hd.2.1.1 (h' ▸ List.mem_map_of_mem he)
  · intro p hp
    obtain ⟨e, he, rfl⟩ := List.mem_map.mp hp
    exact ho e (by simp [he]) fun h' => hd.2.2 e.1 (List.mem_map_of_mem he) _ (.inl rfl) h'

theorem partField_inj {h h' : EntityHeader} (e : partField h = partField h') : h = h' := by
  cases h <;> cases h' <;> simp [partField] at e
  case type.type a b =>
    obtain ⟨_, _, _⟩ := a
    obtain ⟨_, _, _⟩ := b
    simp at e
    simp [e]
  all_goals simp [e]

theorem entry_field {q : Bytes → Res α} {K : α → EntityHeader} {F : α → Field} (hF : ∀ v, F v = partField (K v))
    {i r : Bytes} {h : EntityHeader} :
    matchParsers i [mapValue K q, mapValue (fun (name, value) => .other name value) (unknown c)] = .ok (r, h) ↔
      matchParsers i [mapValue F q, unknownField c] = .ok (r, partField h) := by
  have inj : ∀ h', partField h' = partField h ↔ h' = h := fun h' => ⟨partField_inj, congrArg _⟩
  simp only [matchParsers, mapValue, unknownField]
  cases q i with
  | abort k => simp
  | ok a => simp [hF, inj]
  | err e =>
    simp only [err_bind]
    cases unknown c i with
    | abort k => simp
    | err e => simp
    | ok a =>
      obtain ⟨r', n, v⟩ := a
      have : Field.unknown n v = partField h ↔ EntityHeader.other n v = h := inj (.other n v)
      simp [this]

/-- A header that has a meaning in parts is read in them as in messages. -/
theorem entityHeader_field (hm : c.feat.mime = true) {name s r : Bytes} {h : EntityHeader}
    (hn : name.map asciiLower ∈ partNames) :
    entityHeader c (name ++ b! ":" ++ s) = .ok (r, h) ↔ field c (name ++ b! ":" ++ s) = .ok (r, partField h) := by
  have hp : (name.map asciiLower ++ b! ":") <+: (name ++ b! ":" ++ s).map asciiLower := by
    rw [List.map_append, List.map_append]
    exact List.prefix_append _ _
  simp only [partNames, List.mem_cons, List.not_mem_nil, or_false] at hn
  rcases hn with hn | hn | hn | hn | hn <;> rw [hn] at hp
  · rw [entityHeader_named (p := mapValue .encoding (contentTransferEncoding c)) (by simp [partTable]) hp,
      field_named (p := mapValue .contentTransferEncoding (contentTransferEncoding c)) (by simp [headerTable, enabled, hm]) hp]
    exact entry_field fun _ => rfl
  · rw [entityHeader_named (p := mapValue .type (contentType c)) (by simp [partTable]) hp,
      field_named (p := mapValue (fun (t, st, q) => .contentType t st q) (contentType c)) (by simp [headerTable, enabled, hm]) hp]
    exact entry_field fun _ => rfl
  · rw [entityHeader_named (p := mapValue .id (contentId c)) (by simp [partTable]) hp,
      field_named (p := mapValue .contentId (contentId c)) (by simp [headerTable, enabled, hm]) hp]
    exact entry_field fun _ => rfl
  · rw [entityHeader_named (p := mapValue .description (contentDescription c)) (by simp [partTable]) hp,
      field_named (p := mapValue .contentDescription (contentDescription c)) (by simp [headerTable, enabled, hm]) hp]
    exact entry_field fun _ => rfl
  · rw [entityHeader_named (p := mapValue .disposition (contentDisposition c)) (by simp [partTable]) hp,
      field_named (p := mapValue .contentDisposition (contentDisposition c)) (by simp [headerTable, enabled, hm]) hp]
    exact entry_field fun _ => rfl

/-! ### Dispositions in lines -/

/-- The parser of the header does with a line what the parser of the value does with the text. -/
theorem disposition_line {name s r : Bytes} {v : Disposition} (hn : name.map asciiLower = b! "content-disposition") :
    contentDisposition c (name ++ b! ":" ++ s) = .ok (r, v) ↔ contentDispositionValue c s = .ok (CRLF ++ r, v) := by
  unfold contentDisposition headerLine
  have hn' : (name ++ b! ":").map asciiLower = (b! "Content-Disposition:").map asciiLower := by
    rw [List.map_append, hn]
    decide +kernel
  rw [show (b! "cONTENT-dISPOSITION:") = (b! "Content-Disposition:").map swapCase by decide +kernel, tagNoCase_append _ _ hn', ok_bind]
  constructor
  · intro h
    obtain ⟨⟨i, v'⟩, h1, h⟩ := bind_eq_ok.1 h
    obtain ⟨⟨i', _⟩, h2, h⟩ := bind_eq_ok.1 h
    cases h
    rw [tag_ok_iff] at h2
    rw [h1, h2]
  · intro h
    dsimp only
    rw [h, ok_bind]
    dsimp only
    rw [show (b! "\r\n") = CRLF from rfl, tag_append]
    rfl

theorem field_disposition (hm : c.feat.mime = true) {name s r : Bytes} {v : Disposition}
    (hn : name.map asciiLower = b! "content-disposition") :
    field c (name ++ b! ":" ++ s) = .ok (r, .contentDisposition v) ↔ contentDispositionValue c s = .ok (CRLF ++ r, v) := by
  rw [← disposition_line hn]
  have hf := field_named (c := c) (i := name ++ b! ":" ++ s) (n := b! "content-disposition")
    (p := mapValue .contentDisposition (contentDisposition c)) (by simp [headerTable, enabled, hm])
    (by rw [List.map_append, List.map_append, hn]; exact List.prefix_append _ _)
  rw [hf]
  simp only [matchParsers]
  unfold mapValue
  cases hx : contentDisposition c (name ++ b! ":" ++ s) with
  | abort k => simp
  | ok a =>
    obtain ⟨r', v'⟩ := a
    simp
  | err e =>
    simp only [err_bind]
    refine ⟨fun h => ?_, nofun⟩
    cases hu : unknownField c (name ++ b! ":" ++ s) with
    | abort k => rw [hu] at h; cases h
    | err e => rw [hu] at h; cases h
    | ok a =>
      obtain ⟨r', f⟩ := a
      obtain ⟨_, _, rfl, -⟩ := unknownField_shape hu
      rw [hu] at h
      cases h

end EmailParser
