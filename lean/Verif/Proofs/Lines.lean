import Verif.Proofs.Closed
import Verif.Proofs.Overflow
import Verif.Proofs.Complete.Text
import Verif.Spec.Lines
/-
Whole header lines: a name, a colon, folded text and a line end.
-/
namespace EmailParser
open Spec (Gram Folding)

variable {α β : Type} {c : Cfg} {t x w name : Bytes}

/-! ### Folded text -/

theorem folding_head {x w : Bytes} (h : Folding x w) (hne : x ≠ []) (hs : Stops Spec.wsp x) :
    ∃ b w', w = b :: w' ∧ Spec.vchar b = true := by
  induction h with
  | nil => exact absurd rfl hne
  | char hb _ _ => exact ⟨_, _, rfl, hb⟩
  | @space s x w hw _ _ ih =>
    cases s with
    | nil => exact ih hne hs
    | cons a s =>
      have := hs a (s ++ x) rfl
      rw [hw a (by simp)] at this
      cases this
  | @fold s s' x w hw hw' hne' _ _ _ ih =>
    exfalso
    obtain ⟨a, l, e⟩ : ∃ a l, s ++ s' = a :: l := by
      cases s with
      | nil => exact List.exists_cons_of_ne_nil hne'
      | cons a s => exact ⟨a, s ++ s', rfl⟩
    have h1 := hs a (l ++ x) (by rw [e]; rfl)
    have h2 : Spec.wsp a = true := by
      have : a ∈ s ++ s' := by rw [e]; simp
      rcases List.mem_append.mp this with h | h
      · exact hw a h
      · exact hw' a h
    rw [h2] at h1
    cases h1

theorem wsp_no_cr {s : Bytes} (h : ∀ b ∈ s, Spec.wsp b = true) : 13 ∉ s := by
  intro h'
  have := h 13 h'
  revert this
  decide

/-- A line break inside folded text is followed by white space and then by a printable character. -/
theorem folding_break {x w : Bytes} (h : Folding x w) : ∀ y z, w = y ++ 13 :: 10 :: z →
    ∃ ws b z', z = ws ++ b :: z' ∧ ws ≠ [] ∧ (∀ b ∈ ws, Spec.wsp b = true) ∧ Spec.vchar b = true := by
  induction h with
  | nil => intro y z e; simp at e
  | @char b x w hb _ ih =>
    intro y z e
    cases y with
    | nil =>
      simp only [List.nil_append, List.cons.injEq] at e
      rw [e.1] at hb
      exact absurd hb (by decide)
    | cons a y =>
      simp only [List.cons_append, List.cons.injEq] at e
      exact ih y z e.2
  | @space s x w hw _ _ ih =>
    intro y z e
    obtain ⟨u, rfl, e'⟩ := split_end (wsp_no_cr hw) e.symm
    exact ih u z e'
  | @fold s s' x w hw hw' hne' hne hs hf ih =>
    intro y z e
    rw [List.append_assoc, List.append_assoc] at e
    obtain ⟨u, rfl, e'⟩ := split_end (wsp_no_cr hw) e.symm
    rcases u with - | ⟨a, - | ⟨a', u⟩⟩
    · simp only [Spec.CRLF, List.nil_append, List.cons_append, List.cons.injEq, true_and] at e'
      obtain ⟨b, w', rfl, hb⟩ := folding_head hf hne hs
      exact ⟨s', b, w', e'.symm, hne', hw', hb⟩
    · simp [Spec.CRLF] at e'
    · simp only [Spec.CRLF, List.nil_append, List.cons_append, List.cons.injEq] at e'
      obtain ⟨u', rfl, e''⟩ := split_end (wsp_no_cr hw') e'.2.2.symm
      exact ih u' z e''

theorem vchar_noWsp : ∀ b, Spec.vchar b = true → Spec.wsp b = false := by decide +kernel

theorem folding_no_foldEnd (h : Folding x w) : ¬ FoldEnd w := by
  rintro ⟨y, ws, rfl, -, hw⟩
  obtain ⟨ws', b, z, rfl, -, -, hb⟩ := folding_break h y ws rfl
  have h1 := hw b (by simp)
  rw [vchar_noWsp b hb] at h1
  cases h1

theorem wsp_run_unique {ws ws' : Bytes} {b b' : UInt8} {z z' : Bytes} (hw : ∀ b ∈ ws, Spec.wsp b = true)
    (hw' : ∀ b ∈ ws', Spec.wsp b = true) (hb : Spec.wsp b = false) (hb' : Spec.wsp b' = false)
    (h : ws ++ b :: z = ws' ++ b' :: z') : b = b' := by
  have h1 := (takeWhile_run (r := b :: z) hw (stops_cons.mpr hb)).2
  have h2 := (takeWhile_run (r := b' :: z') hw' (stops_cons.mpr hb')).2
  rw [h, h2] at h1
  simp only [List.cons.injEq] at h1
  exact h1.1.symm

/-- A parser of structured text that is followed by a line end has read the whole of a folded text, and the
text does not end with white space. -/
theorem closed_line {p : Bytes → Res α} {r : Bytes} {v : α} (hp : On Cls (w ++ 13 :: 10 :: t) (p (w ++ 13 :: 10 :: t)))
    (hf : Folding x w) (h : p (w ++ 13 :: 10 :: t) = .ok (13 :: 10 :: r, v)) (hr : t.length ≤ r.length) :
    r = t ∧ SolidEnd w := by
  obtain ⟨u, e, -, he⟩ := hp _ _ h
  rcases List.append_eq_append_iff.mp e with ⟨as, e1, e2⟩ | ⟨bs, e1, e2⟩
  · -- the text read is at least as long
    rcases as with - | ⟨a, as⟩
    · rw [List.append_nil] at e1
      simp only [List.nil_append, List.cons.injEq, true_and] at e2
      subst e1 e2
      refine ⟨rfl, ?_⟩
      rcases he t rfl with h | h
      · exact h.2
      · exact absurd h (folding_no_foldEnd hf)
    · exfalso
      have := congrArg List.length e2
      simp at this
      omega
  · rcases bs with - | ⟨a, - | ⟨a', s⟩⟩
    · rw [List.append_nil] at e1
      simp only [List.nil_append, List.cons.injEq, true_and] at e2
      subst e1 e2
      refine ⟨rfl, ?_⟩
      rcases he r rfl with h | h
      · exact h.2
      · exact absurd h (folding_no_foldEnd hf)
    · simp at e2
    · exfalso
      simp only [List.cons_append, List.cons.injEq] at e2
      obtain ⟨rfl, rfl, e2⟩ := e2
      obtain ⟨ws, b, z, rfl, hne, hw, hb⟩ := folding_break hf u s e1
      rcases he r rfl with ⟨h1, -⟩ | ⟨y, ws', e3, -, hw'⟩
      · obtain ⟨a, l, rfl⟩ := List.exists_cons_of_ne_nil hne
        have := h1 a (l ++ b :: z ++ 13 :: 10 :: t) (by rw [e2]; simp)
        rw [hw a (by simp)] at this
        cases this
      · subst e3
        obtain ⟨ws₂, b₂, z₂, e4, -, hw₂, hb₂⟩ := folding_break hf y (ws' ++ 13 :: 10 :: (ws ++ b :: z)) (by
          rw [e1]; simp)
        have := wsp_run_unique hw' hw₂ (by decide) (vchar_noWsp _ hb₂) e4
        rw [← this] at hb₂
        revert hb₂
        decide

/-! ### Header names -/

theorem lower_colon : ∀ b : UInt8, asciiLower b = 58 ↔ b = 58 := by decide +kernel
theorem ftext_colon {name : Bytes} (h : ∀ b ∈ name, Spec.ftext b = true) : 58 ∉ name := fun h' => by
  have := h 58 h'
  revert this
  decide

theorem first_colon : ∀ {a b s s' : Bytes}, 58 ∉ a → 58 ∉ b → a ++ 58 :: s = b ++ 58 :: s' → a = b ∧ s = s'
  | [], [], _, _, _, _, h => by simpa using h
  | [], y :: b, _, _, _, hb, h => by
    simp only [List.nil_append, List.cons_append, List.cons.injEq] at h
    rw [← h.1] at hb
    simp at hb
  | y :: a, [], _, _, ha, _, h => by
    simp only [List.nil_append, List.cons_append, List.cons.injEq] at h
    rw [h.1] at ha
    simp at ha
  | y :: a, z :: b, s, s', ha, hb, h => by
    simp only [List.cons_append, List.cons.injEq] at h
    simp only [List.mem_cons, not_or] at ha hb
    obtain ⟨h1, h2⟩ := first_colon ha.2 hb.2 h.2
    exact ⟨by rw [h.1, h1], h2⟩

/-- The parser of a header is tried on a line: it fails if the name is another one, else the value is parsed. -/
theorem headerLine_line {n n2 rest : Bytes} {m m' : String} {p : Bytes → Res α} (hn : n2 = (n ++ [58]).map swapCase)
    (hc : 58 ∉ n.map asciiLower) (hname : 58 ∉ name) :
    (name.map asciiLower ≠ n.map asciiLower ∧
      ∃ e, headerLine (n ++ [58]) n2 m m' p (name ++ 58 :: rest) = .err e) ∨
    (name.map asciiLower = n.map asciiLower ∧ headerLine (n ++ [58]) n2 m m' p (name ++ 58 :: rest) =
      (p rest >>= fun a => tag a.1 (b! "\r\n") m' >>= fun b => .ok (b.1, a.2))) := by
  subst hn
  by_cases h : name.map asciiLower = n.map asciiLower
  · refine .inr ⟨h, ?_⟩
    have e : name ++ 58 :: rest = (name ++ [58]) ++ rest := by simp
    have hl : (name ++ [58]).map asciiLower = (n ++ [58]).map asciiLower := by simp [h]
    unfold headerLine
    rw [e, tagNoCase_append _ m hl]
    rfl
  · refine .inl ⟨h, headerLine_other rfl fun hp => h ?_⟩
    obtain ⟨s, hs⟩ := hp
    simp only [List.map_append, List.map_cons, List.map_nil, List.append_assoc, List.cons_append, List.nil_append,
      show asciiLower 58 = 58 from rfl] at hs
    refine (first_colon hc ?_ hs).1.symm
    intro h'
    obtain ⟨b, hb, hb'⟩ := List.mem_map.mp h'
    rw [lower_colon] at hb'
    exact hname (hb' ▸ hb)

/-- The value of a header, as parsed by `p`, in a line with folded text. -/
structure Whole (p : Bytes → Res α) (solid : Bool) : Prop where
  whole : ∀ {x w t r : Bytes} {v : α}, Folding x w → Stops Spec.wsp t → p (w ++ 13 :: 10 :: t) = .ok (13 :: 10 :: r, v) →
    t.length ≤ r.length → r = t ∧ (solid = true → SolidEnd w)

theorem whole_of_on {p : Bytes → Res α} (h : ∀ i, On Cls i (p i)) (b : Bool) : Whole p b :=
  ⟨fun hf _ h' hr => let ⟨h1, h2⟩ := closed_line (h _) hf h' hr; ⟨h1, fun _ => h2⟩⟩

theorem whole_of_total {p : Bytes → Res α} (h : ∀ {x w t : Bytes}, Folding x w → Stops Spec.wsp t →
    ∃ v, p (w ++ 13 :: 10 :: t) = .ok (13 :: 10 :: t, v)) : Whole p false :=
  ⟨fun hf ht h' _ => by
    obtain ⟨v, hv⟩ := h hf ht
    rw [hv] at h'
    simp at h'
    exact ⟨h'.1.symm, by simp⟩⟩

theorem noFws_line (ht : Stops Spec.wsp t) : NoFws (13 :: 10 :: t) ∧ Stops Spec.vchar (13 :: 10 :: t) :=
  ⟨⟨stops_cons.mpr (by decide), fun s e => by cases e; exact ht⟩, stops_cons.mpr (by decide)⟩

theorem folding_unstructured (h : Folding x w) : Spec.Unstructured w (Spec.trimEnd x) := by
  obtain ⟨s, vs, t, rfl, hs, ht, rfl⟩ := folding_parts h
  rw [trimEnd_append ht (textParts_last hs)]
  exact ⟨s, t ++ [], vs, by simp, hs, t, [], t, rfl, ⟨rfl, ht⟩, rfl, rfl⟩

theorem unstructured_line (hf : Folding x w) (ht : Stops Spec.wsp t) :
    unstructured (w ++ 13 :: 10 :: t) = .ok (13 :: 10 :: t, Spec.trimEnd x) :=
  unstructured_append (folding_unstructured hf) (noFws_line ht).1 (noFws_line ht).2

theorem mimeUnstructured_line (hf : Folding x w) (ht : Stops Spec.wsp t) :
    ∃ v, mimeUnstructured c (w ++ 13 :: 10 :: t) = .ok (13 :: 10 :: t, v) :=
  mimeUnstructured_total (folding_unstructured hf) (noFws_line ht).1 (noFws_line ht).2

theorem textValue_line (hf : Folding x w) (ht : Stops Spec.wsp t) :
    ∃ v, textValue c (w ++ 13 :: 10 :: t) = .ok (13 :: 10 :: t, v) := by
  unfold textValue
  split
  · exact mimeUnstructured_line hf ht
  · exact ⟨_, unstructured_line hf ht⟩

/-! ### Lines -/

/-- A header line, followed by `t`. -/
def lineText (name w t : Bytes) : Bytes := name ++ 58 :: (w ++ 13 :: 10 :: t)

/-- What the parser `p` of the header `n` can do with a line: it fails if the name is another one, and if it
succeeds then it has read the whole line (unless `cuts`), which does not end with white space (if `solid`). -/
structure Header (n : Bytes) (cuts solid : Bool) (p : Bytes → Res α) : Prop where
  other : ∀ {name w t}, 58 ∉ name → name.map asciiLower ≠ n.map asciiLower → ∃ e, p (lineText name w t) = .err e
  whole : ∀ {name x w t r : Bytes} {v : α}, 58 ∉ name → Folding x w → Stops Spec.wsp t →
    p (lineText name w t) = .ok (r, v) → cuts = false → r = t
  solid : ∀ {name x w t r : Bytes} {v : α}, 58 ∉ name → Folding x w → Stops Spec.wsp t →
    p (lineText name w t) = .ok (r, v) → solid = true → SolidEnd w

theorem headerLine_header {n n1 n2 : Bytes} {m m' : String} {p : Bytes → Res α} {solid : Bool} (hn1 : n1 = n ++ [58])
    (hn : n2 = n1.map swapCase) (hc : 58 ∉ n.map asciiLower) (hl : LocalLine (headerLine n1 n2 m m' p))
    (hp : Whole p solid) : Header n false solid (headerLine n1 n2 m m' p) := by
  subst hn1
  have key : ∀ {name x w t r : Bytes} {v : α}, 58 ∉ name → Folding x w → Stops Spec.wsp t →
      headerLine (n ++ [58]) n2 m m' p (lineText name w t) = .ok (r, v) →
      r = t ∧ (solid = true → SolidEnd w) := by
    intro name x w t r v hname hf ht h
    have hr : t.length ≤ r.length := by
      have e : lineText name w t = (name ++ 58 :: w) ++ 13 :: 10 :: t := by simp [lineText]
      rw [e] at h
      rcases hl.cases (w := name ++ 58 :: w) (t := t) (t' := t) ⟨ht, ht⟩ with
        ⟨u, s, v, -, h1, -⟩ | ⟨v, h1, -⟩ | ⟨e, e', h1, -⟩ | ⟨k, h1, -⟩ <;> rw [h] at h1 <;> cases h1
      · simp; omega
      · simp
    rcases headerLine_line (m := m) (m' := m') (p := p) (rest := w ++ 13 :: 10 :: t) hn hc hname with
      ⟨-, e, h'⟩ | ⟨-, h'⟩
    · rw [lineText, h'] at h
      cases h
    · rw [lineText, h'] at h
      obtain ⟨⟨r₁, v₁⟩, h1, h2⟩ := bind_eq_ok.1 h
      obtain ⟨⟨r₂, _⟩, h3, h4⟩ := bind_eq_ok.1 h2
      cases h4
      obtain rfl : r₁ = 13 :: 10 :: r₂ := tag_ok_iff.mp h3
      exact hp.whole hf ht h1 hr
  refine ⟨fun {name w t} hname hne => ?_, fun a b d e _ => (key a b d e).1, fun a b d e => (key a b d e).2⟩
  rcases headerLine_line (m := m) (m' := m') (p := p) (rest := w ++ 13 :: 10 :: t) hn hc hname with
    ⟨-, h'⟩ | ⟨h', -⟩
  · exact h'
  · exact absurd h' hne

theorem headerLine_header_cuts {n n1 n2 : Bytes} {m m' : String} {p : Bytes → Res α} (hn1 : n1 = n ++ [58])
    (hn : n2 = n1.map swapCase) (hc : 58 ∉ n.map asciiLower) : Header n true false (headerLine n1 n2 m m' p) := by
  subst hn1
  refine ⟨fun {name w t} hname hne => ?_, by simp, by simp⟩
  rcases headerLine_line (m := m) (m' := m') (p := p) (rest := w ++ 13 :: 10 :: t) hn hc hname with
    ⟨-, h'⟩ | ⟨h', -⟩
  · exact h'
  · exact absurd h' hne

theorem Header.mapValue {n : Bytes} {cuts solid : Bool} {p : Bytes → Res α} {f : α → β} (h : Header n cuts solid p) :
    Header n cuts solid (mapValue f p) := by
  have key : ∀ {i r v}, EmailParser.mapValue f p i = .ok (r, v) → ∃ v', p i = .ok (r, v') := by
    intro i r v h
    obtain ⟨⟨r', v'⟩, h1, h2⟩ := bind_eq_ok.1 h
    cases h2
    exact ⟨v', h1⟩
  refine ⟨fun {name w t} hname hne => ?_, fun a b d e => ?_, fun a b d e => ?_⟩
  · obtain ⟨e, he⟩ := h.other (w := w) (t := t) hname hne
    exact ⟨e, by simp [EmailParser.mapValue, he]⟩
  · obtain ⟨v', h'⟩ := key e
    exact h.whole a b d h'
  · obtain ⟨v', h'⟩ := key e
    exact h.solid a b d h'

end EmailParser

namespace EmailParser
open Spec (Gram Folding)

variable {α β : Type} {c : Cfg} {t x w name : Bytes}

/-! ### The alternatives of `fields` -/

/-- One of the alternatives for a header field, other than `unknown`. -/
def Known (c : Cfg) (p : Bytes → Res Field) : Prop :=
  ∃ n cuts solid, Header n cuts solid p ∧ (cuts = true → Spec.CutName c n) ∧
    (n.map asciiLower ∈ Spec.structuredNames ∨ (c.feat.mime = false ∧ n.map asciiLower = b! "keywords") →
      solid = true) ∧ Spec.Recognized c.feat (n.map asciiLower) ∧
    ∀ i r f, p i = .ok (r, f) → Spec.headerOf f = some (n.map asciiLower)

theorem mapValue_known {n : Bytes} {p : Bytes → Res α} {f : α → Field}
    (hu : ∀ a, Spec.headerOf (f a) = some (n.map asciiLower)) (i r : Bytes) (v : Field)
    (h : mapValue f p i = .ok (r, v)) : Spec.headerOf v = some (n.map asciiLower) := by
  obtain ⟨⟨r', v'⟩, h1, h2⟩ := bind_eq_ok.1 h
  simp only [Outcome.ok.injEq, Prod.mk.injEq] at h2
  rw [← h2.2, hu]

theorem known_closed {n n1 n2 : Bytes} {m m' : String} {p : Bytes → Res α} {f : α → Field} (hn1 : n1 = n ++ [58])
    (hn : n2 = n1.map swapCase) (hc : 58 ∉ n.map asciiLower) (hn13 : 13 ∉ n1.map asciiLower) (hl : Local p)
    (hp : ∀ i, On Cls i (p i)) (hr : Spec.Recognized c.feat (n.map asciiLower))
    (hu : ∀ a, Spec.headerOf (f a) = some (n.map asciiLower)) : Known c (mapValue f (headerLine n1 n2 m m' p)) :=
  ⟨n, false, true, (headerLine_header hn1 hn hc (headerLine_local hn hn13 hl) (whole_of_on hp true)).mapValue, by simp,
    fun _ => rfl, hr, mapValue_known hu⟩

theorem known_text {n n1 n2 : Bytes} {m m' : String} {p : Bytes → Res α} {f : α → Field} (hn1 : n1 = n ++ [58])
    (hn : n2 = n1.map swapCase) (hc : 58 ∉ n.map asciiLower) (hn13 : 13 ∉ n1.map asciiLower) (hl : Local p)
    (hs : n.map asciiLower ∉ Spec.structuredNames ++ [b! "keywords"])
    (hp : ∀ {x w t : Bytes}, Folding x w → Stops Spec.wsp t → ∃ v, p (w ++ 13 :: 10 :: t) = .ok (13 :: 10 :: t, v))
    (hr : Spec.Recognized c.feat (n.map asciiLower))
    (hu : ∀ a, Spec.headerOf (f a) = some (n.map asciiLower)) : Known c (mapValue f (headerLine n1 n2 m m' p)) :=
  ⟨n, false, false, (headerLine_header hn1 hn hc (headerLine_local hn hn13 hl) (whole_of_total hp)).mapValue, by simp,
    fun h => absurd (List.mem_append.mpr (h.imp_right fun h => List.mem_singleton.mpr h.2)) hs, hr, mapValue_known hu⟩

theorem known_cuts {n n1 n2 : Bytes} {m m' : String} {p : Bytes → Res α} {f : α → Field} (hn1 : n1 = n ++ [58])
    (hn : n2 = n1.map swapCase) (hc : 58 ∉ n.map asciiLower) (hcut : Spec.CutName c n)
    (hs : n.map asciiLower ∉ Spec.structuredNames) (hr : Spec.Recognized c.feat (n.map asciiLower))
    (hu : ∀ a, Spec.headerOf (f a) = some (n.map asciiLower)) :
    Known c (mapValue f (headerLine n1 n2 m m' p)) :=
  ⟨n, true, false, (headerLine_header_cuts hn1 hn hc).mapValue, fun _ => hcut,
    fun h => h.elim (fun h => absurd h hs) fun h => absurd hcut.1 (by simp [h.1]), hr, mapValue_known hu⟩

theorem keywords_known (h : c.feat.keywords = true) : Known c (mapValue Field.keywords (keywordsField c)) := by
  by_cases hm : c.feat.mime = true
  · exact known_cuts (n := b! "Keywords") rfl rfl (by decide) ⟨hm, by decide⟩ (by decide) (by simp [Spec.Recognized, h, asciiLower]) (fun _ => rfl)
  · exact known_closed (n := b! "Keywords") rfl rfl (by decide) (by decide) keywordList_local
      (fun i => keywordList_on (by simpa using hm)) (by simp [Spec.Recognized, h, asciiLower]) (fun _ => rfl)

theorem fieldParsers_known : ∃ ps, fieldParsers c =
    ps ++ [mapValue (fun (name, value) => .unknown name value) (unknown c)] ∧ ∀ p ∈ ps, Known c p := by
  unfold fieldParsers
  refine ⟨_, rfl, ?_⟩
  refine append_forall ?_ (enabled_forall fun h => keywords_known h)
  refine append_forall ?_ (enabled_forall fun h =>
    known_cuts (n := b! "Content-Disposition") rfl rfl (by decide) ⟨h, by decide⟩ (by decide) (by simp [Spec.Recognized, h, asciiLower]) (fun _ => rfl))
  refine append_forall ?_ (enabled_forall fun h => known_text (n := b! "Content-Description") rfl rfl (by decide)
    (by decide) mimeUnstructured_local (by decide) mimeUnstructured_line (by simp [Spec.Recognized, h, asciiLower]) (fun _ => rfl))
  refine append_forall ?_ (enabled_forall fun h => known_closed (n := b! "Content-ID") rfl rfl (by decide)
    (by decide) messageId_local (fun _ => messageId_on) (by simp [Spec.Recognized, h, asciiLower]) (fun _ => rfl))
  refine append_forall ?_ (enabled_forall fun h =>
    known_cuts (n := b! "Content-Transfer-Encoding") rfl rfl (by decide) ⟨h, by decide⟩ (by decide) (by simp [Spec.Recognized, h, asciiLower]) (fun _ => rfl))
  refine append_forall ?_ (enabled_forall fun h =>
    known_cuts (n := b! "Content-Type") rfl rfl (by decide) ⟨h, by decide⟩ (by decide) (by simp [Spec.Recognized, h, asciiLower]) (fun _ => rfl))
  refine append_forall ?_ (enabled_forall fun h =>
    known_cuts (n := b! "MIME-Version") rfl rfl (by decide) ⟨h, by decide⟩ (by decide) (by simp [Spec.Recognized, h, asciiLower]) (fun _ => rfl))
  refine append_forall ?_ (enabled_forall fun h => known_text (n := b! "Comments") rfl rfl (by decide)
    (by decide) textValue_local (by decide) textValue_line (by simp [Spec.Recognized, h, asciiLower]) (fun _ => rfl))
  refine append_forall ?_ (enabled_forall fun h => known_text (n := b! "Subject") rfl rfl (by decide)
    (by decide) textValue_local (by decide) textValue_line (by simp [Spec.Recognized, h, asciiLower]) (fun _ => rfl))
  refine append_forall ?_ (enabled_forall fun h => known_closed (n := b! "References") rfl rfl (by decide)
    (by decide) messageIds_local (fun _ => messageIds_on) (by simp [Spec.Recognized, h, asciiLower]) (fun _ => rfl))
  refine append_forall ?_ (enabled_forall fun h => known_closed (n := b! "In-Reply-To") rfl rfl (by decide)
    (by decide) messageIds_local (fun _ => messageIds_on) (by simp [Spec.Recognized, h, asciiLower]) (fun _ => rfl))
  refine append_forall ?_ (enabled_forall fun h => known_closed (n := b! "Message-ID") rfl rfl (by decide)
    (by decide) messageId_local (fun _ => messageId_on) (by simp [Spec.Recognized, h, asciiLower]) (fun _ => rfl))
  refine append_forall ?_ (enabled_forall fun h => known_closed (n := b! "Bcc") rfl rfl (by decide)
    (by decide) bccValue_local (fun _ => bccValue_on) (by simp [Spec.Recognized, h, asciiLower]) (fun _ => rfl))
  refine append_forall ?_ (enabled_forall fun h => known_closed (n := b! "Cc") rfl rfl (by decide)
    (by decide) addressList_local (fun _ => addressList_on) (by simp [Spec.Recognized, h, asciiLower]) (fun _ => rfl))
  refine append_forall ?_ (enabled_forall fun h => known_closed (n := b! "To") rfl rfl (by decide)
    (by decide) addressList_local (fun _ => addressList_on) (by simp [Spec.Recognized, h, asciiLower]) (fun _ => rfl))
  refine append_forall ?_ (enabled_forall fun h => known_closed (n := b! "Reply-To") rfl rfl (by decide)
    (by decide) addressList_local (fun _ => addressList_on) (by simp [Spec.Recognized, h, asciiLower]) (fun _ => rfl))
  refine append_forall ?_ (enabled_forall fun h => known_closed (n := b! "Sender") rfl rfl (by decide)
    (by decide) mailbox_local (fun _ => mailbox_on) (by simp [Spec.Recognized, h, asciiLower]) (fun _ => rfl))
  refine append_forall ?_ (enabled_forall fun h => known_closed (n := b! "From") rfl rfl (by decide)
    (by decide) mailboxList_local (fun _ => mailboxList_on) (by simp [Spec.Recognized, h, asciiLower]) (fun _ => rfl))
  exact enabled_forall fun h => known_closed (n := b! "Date") rfl rfl (by decide)
    (by decide) dateTime_local (fun _ => dateTime_on) (by simp [Spec.Recognized, h, asciiLower]) (fun _ => rfl)

/-! ### A whole line -/

theorem unknownValue_line (hf : Folding x w) (ht : Stops Spec.wsp t) :
    ∃ v, unknownValue c (w ++ 13 :: 10 :: t) = .ok (13 :: 10 :: t, v) ∧
      ((c.feat.unrecognizedHeaders = false ∨ ¬ b! "=?" <:+: x) → v = Spec.trimEnd x) := by
  unfold unknownValue
  split
  · rename_i h
    obtain ⟨v, hv⟩ := mimeUnstructured_line (c := c) hf ht
    refine ⟨v, hv, ?_⟩
    rintro (h' | hno)
    · rw [h] at h'; cases h'
    · obtain ⟨s, vs, t', rfl, hs, ht', rfl⟩ := folding_parts hf
      obtain ⟨ps, hps, hj⟩ := layout_plain (c := c) _ s vs (Nat.le_refl _) hs
        (fun hi => hno (hi.trans (List.prefix_append _ _).isInfix))
      have h1 := mimeUnstructured_append hps ht' (noFws_line ht).1 (noFws_line ht).2
      rw [List.append_assoc] at hv
      rw [h1] at hv
      simp only [Outcome.ok.injEq, Prod.mk.injEq, true_and] at hv
      rw [← hv, trimEnd_append ht' (textParts_last hs), hj]
  · exact ⟨_, unstructured_line hf ht, fun _ => rfl⟩

theorem unknown_line (hne : name ≠ []) (hn : ∀ b ∈ name, Spec.ftext b = true) (hf : Folding x w)
    (ht : Stops Spec.wsp t) : ∃ v, unknown c (lineText name w t) = .ok (t, (name, v)) ∧
      ((c.feat.unrecognizedHeaders = false ∨ ¬ b! "=?" <:+: x) → v = Spec.trimEnd x) := by
  obtain ⟨v, hv, hv'⟩ := unknownValue_line (c := c) hf ht
  refine ⟨v, ?_, hv'⟩
  unfold unknown lineText
  rw [isFtext_eq, takeWhile1_ok hne hn (stops_cons.mpr (by decide))]
  simp only [ok_bind]
  rw [show 58 :: (w ++ 13 :: 10 :: t) = b! ":" ++ (w ++ 13 :: 10 :: t) from rfl, tag_append]
  simp only [ok_bind, hv]
  rw [show 13 :: 10 :: t = b! "\r\n" ++ t from rfl, tag_append]
  rfl

theorem matchParsers_snoc {i : Bytes} {q : Bytes → Res α} : ∀ {ps : List (Bytes → Res α)},
    (∃ k, matchParsers i (ps ++ [q]) = .abort k) ∨
    (∃ p ∈ ps, ∃ a, p i = .ok a ∧ matchParsers i (ps ++ [q]) = .ok a) ∨
    ((∀ p ∈ ps, ∃ e, p i = .err e) ∧ ((∃ a, q i = .ok a ∧ matchParsers i (ps ++ [q]) = .ok a) ∨
      ∃ e e', q i = .err e ∧ matchParsers i (ps ++ [q]) = .err e'))
  | [] => by
    simp only [List.nil_append, matchParsers]
    cases h : q i with
    | ok a => simp
    | err e => simp
    | abort k => simp
  | p :: ps => by
    simp only [List.cons_append, matchParsers]
    cases h : p i with
    | ok a => exact .inr (.inl ⟨p, by simp, a, h, rfl⟩)
    | abort k => exact .inl ⟨k, rfl⟩
    | err e =>
      rcases matchParsers_snoc (i := i) (q := q) (ps := ps) with h1 | ⟨p', hp', a, h1, h2⟩ | ⟨h1, h2⟩
      · exact .inl h1
      · exact .inr (.inl ⟨p', by simp [hp'], a, h1, h2⟩)
      · refine .inr (.inr ⟨?_, h2⟩)
        intro p' hp'
        rcases List.mem_cons.mp hp' with rfl | hp'
        · exact ⟨e, h⟩
        · exact h1 p' hp'

/-- One header line: the field read is that of a known header, or an unknown field. -/
theorem field_line (hne : name ≠ []) (hn : ∀ b ∈ name, Spec.ftext b = true) (hf : Folding x w)
    (ht : Stops Spec.wsp t) :
    (∃ k, field c (lineText name w t) = .abort k) ∨
    (∃ r f, field c (lineText name w t) = .ok (r, f) ∧ (¬ Spec.CutName c name → r = t) ∧
      (name.map asciiLower ∈ Spec.structuredNames ∨ (c.feat.mime = false ∧ name.map asciiLower = b! "keywords") →
        SolidEnd w) ∧
      Spec.Recognized c.feat (name.map asciiLower) ∧ Spec.headerOf f = some (name.map asciiLower)) ∨
    (∃ v, field c (lineText name w t) = .ok (t, .unknown name v) ∧
      ((c.feat.unrecognizedHeaders = false ∨ ¬ b! "=?" <:+: x) → v = Spec.trimEnd x)) := by
  obtain ⟨ps, hps, hk⟩ := fieldParsers_known (c := c)
  unfold field
  rw [hps]
  rcases matchParsers_snoc (i := lineText name w t) (ps := ps)
      (q := mapValue (fun (name, value) => .unknown name value) (unknown c)) with
    h | ⟨p, hp, ⟨r, f⟩, h1, h2⟩ | ⟨-, h⟩
  · exact .inl h
  · refine .inr (.inl ⟨r, f, h2, ?_⟩)
    obtain ⟨n, cuts, solid, hh, hcut, hsol, hr, hu⟩ := hk p hp
    have hcol := ftext_colon hn
    have hname : name.map asciiLower = n.map asciiLower := by
      by_cases e : name.map asciiLower = n.map asciiLower
      · exact e
      · obtain ⟨e', h3⟩ := hh.other (w := w) (t := t) hcol e
        rw [h1] at h3
        cases h3
    refine ⟨fun hnc => hh.whole hcol hf ht h1 ?_, fun hs => hh.solid hcol hf ht h1 (hsol (hname ▸ hs)),
      hname ▸ hr, hname ▸ hu _ _ _ h1⟩
    cases cuts with
    | false => rfl
    | true =>
      refine absurd ?_ hnc
      have := hcut rfl
      exact ⟨this.1, by rw [hname]; exact this.2⟩
  · obtain ⟨v, hv, hv'⟩ := unknown_line (c := c) hne hn hf ht
    have hm : mapValue (fun (name, value) => Field.unknown name value) (unknown c) (lineText name w t) =
        .ok (t, .unknown name v) := by
      simp only [mapValue, hv, ok_bind]
    rw [hm] at h
    rcases h with ⟨a, h1, h2⟩ | ⟨e, e', h1, -⟩
    · cases h1
      exact .inr (.inr ⟨v, h2, hv'⟩)
    · cases h1

theorem field_unrecognized (hne : name ≠ []) (hn : ∀ b ∈ name, Spec.ftext b = true) (hf : Folding x w)
    (ht : Stops Spec.wsp t) (hr : ¬ Spec.Recognized c.feat (name.map asciiLower)) :
    ∃ v, field c (lineText name w t) = .ok (t, .unknown name v) ∧
      ((c.feat.unrecognizedHeaders = false ∨ ¬ b! "=?" <:+: x) → v = Spec.trimEnd x) := by
  obtain ⟨ps, hps, hk⟩ := fieldParsers_known (c := c)
  obtain ⟨v, hv, hv'⟩ := unknown_line (c := c) hne hn hf ht
  refine ⟨v, ?_, hv'⟩
  unfold field
  obtain ⟨e, he⟩ := matchParsers_all_err (t := lineText name w t) (ps := ps) fun p hp => by
    obtain ⟨n, _, _, hh, -, -, hr', -⟩ := hk p hp
    exact hh.other (ftext_colon hn) fun e => hr (e ▸ hr')
  rw [hps, matchParsers_append, he]
  simp [matchParsers, mapValue, hv]

end EmailParser

namespace EmailParser
open Spec (Gram Folding)

variable {α β : Type} {c : Cfg} {t x w name : Bytes}

/-! ### Trace headers -/

/-- A parser of one of the trace headers. -/
def TraceHeader (p : Bytes → Res α) : Prop := ∀ {name x w t r : Bytes} {v : α}, 58 ∉ name → Folding x w →
  Stops Spec.wsp t → p (lineText name w t) = .ok (r, v) → r = t ∧ SolidEnd w

theorem Header.trace {n : Bytes} {p : Bytes → Res α} (h : Header n false true p) : TraceHeader p :=
  fun a b d e => ⟨h.whole a b d e rfl, h.solid a b d e rfl⟩

theorem returnPath_trace : TraceHeader (returnPath c) :=
  (headerLine_header (n := b! "Return-Path") rfl rfl (by decide) returnPath_local
    (whole_of_on (fun _ => returnPathValue_on) true)).trace

theorem received_trace : TraceHeader (received c) :=
  (headerLine_header (n := b! "Received") rfl rfl (by decide) received_local
    (whole_of_on (fun _ => receivedValue_on) true)).trace

theorem prefix_no_colon {p name rest r : Bytes} (hp : 58 ∉ p) (h : name ++ 58 :: rest = p ++ r) :
    ∃ u, name = p ++ u ∧ r = u ++ 58 :: rest := by
  rcases List.append_eq_append_iff.mp h with ⟨as, e1, e2⟩ | ⟨bs, e1, e2⟩
  · cases as with
    | nil => exact ⟨[], by simpa using e1.symm, by simpa using e2.symm⟩
    | cons a as =>
      simp only [List.cons_append, List.cons.injEq] at e2
      obtain ⟨rfl, -⟩ := e2
      simp [e1] at hp
  · exact ⟨bs, e1, e2⟩

theorem resent_trace {m : String} {p : Bytes → Res α} (hp : TraceHeader p) : TraceHeader (resent m p) := by
  intro name x w t r v hn hf ht h
  unfold resent at h
  rcases tagNoCase_cases (lineText name w t) (b! "Resent-") m with ⟨n, r', hi, hl, h1⟩ | ⟨-, e, h1⟩ <;>
    rw [show (b! "rESENT-") = (b! "Resent-").map swapCase from rfl, h1] at h
  · rw [ok_bind] at h
    obtain ⟨⟨r₂, v₂⟩, h2, h3⟩ := bind_eq_ok.1 h
    cases h3
    have hcol : 58 ∉ n := by
      intro h'
      have h'' : asciiLower 58 ∈ n.map asciiLower := List.mem_map_of_mem h'
      rw [hl] at h''
      revert h''
      decide
    obtain ⟨u, rfl, rfl⟩ := prefix_no_colon hcol hi
    exact hp (fun h => hn (by simp [h])) hf ht h2
  · cases h

theorem mapValue_trace {p : Bytes → Res α} {f : α → β} (hp : TraceHeader p) : TraceHeader (mapValue f p) := by
  intro name x w t r v hn hf ht h
  obtain ⟨⟨r', v'⟩, h1, h2⟩ := bind_eq_ok.1 h
  cases h2
  exact hp hn hf ht h1

theorem matchParsers_trace {ps : List (Bytes → Res α)} (h : ∀ p ∈ ps, TraceHeader p) :
    TraceHeader fun i => matchParsers i ps := by
  intro name x w t r v hn hf ht h'
  dsimp only at h'
  induction ps with
  | nil => cases h'
  | cons p ps ih =>
    unfold matchParsers at h'
    cases hx : p (lineText name w t) with
    | ok a => rw [hx] at h'; cases h'; exact h p (by simp) hn hf ht hx
    | err e => rw [hx] at h'; exact ih (fun q hq => h q (by simp [hq])) h'
    | abort k => rw [hx] at h'; cases h'

theorem closed_trace {n n1 n2 : Bytes} {m m' : String} {p : Bytes → Res α} (hn1 : n1 = n ++ [58])
    (hn : n2 = n1.map swapCase) (hc : 58 ∉ n.map asciiLower) (hn13 : 13 ∉ n1.map asciiLower) (hl : Local p)
    (hp : ∀ i, On Cls i (p i)) : TraceHeader (headerLine n1 n2 m m' p) :=
  (headerLine_header hn1 hn hc (headerLine_local hn hn13 hl) (whole_of_on hp true)).trace

theorem traceFields_trace : TraceHeader fun i => matchParsers i (traceFieldParsers c) := by
  refine matchParsers_trace fun p hp => ?_
  simp only [traceFieldParsers, List.mem_cons, List.not_mem_nil, or_false] at hp
  rcases hp with rfl | rfl | rfl | rfl | rfl | rfl | rfl <;> refine mapValue_trace (resent_trace ?_)
  · exact closed_trace (n := b! "Date") rfl rfl (by decide) (by decide) dateTime_local fun _ => dateTime_on
  · exact closed_trace (n := b! "From") rfl rfl (by decide) (by decide) mailboxList_local fun _ => mailboxList_on
  · exact closed_trace (n := b! "Sender") rfl rfl (by decide) (by decide) mailbox_local fun _ => mailbox_on
  · exact closed_trace (n := b! "To") rfl rfl (by decide) (by decide) addressList_local fun _ => addressList_on
  · exact closed_trace (n := b! "Cc") rfl rfl (by decide) (by decide) addressList_local fun _ => addressList_on
  · exact closed_trace (n := b! "Bcc") rfl rfl (by decide) (by decide) bccValue_local fun _ => bccValue_on
  · exact closed_trace (n := b! "Message-ID") rfl rfl (by decide) (by decide) messageId_local fun _ => messageId_on

/-! ### Blocks of lines -/

/-- A header line whose folding does not matter. -/
def PlainLine (c : Cfg) (l : Bytes) : Prop :=
  ∃ name x w, Spec.HeaderText name x w l ∧ (Spec.CutName c name → w = x)

theorem lineText_eq {l : Bytes} (h : Spec.HeaderText name x w l) (t : Bytes) : l ++ t = lineText name w t := by
  rw [h.text]
  simp [lineText, Spec.CRLF]

theorem headerText_stops {l : Bytes} (h : Spec.HeaderText name x w l) (t : Bytes) : Stops Spec.wsp (l ++ t) := by
  rw [lineText_eq h]
  obtain ⟨a, n, rfl⟩ := List.exists_cons_of_ne_nil h.name_ne
  intro b r e
  simp only [lineText, List.cons_append, List.cons.injEq] at e
  rw [← e.1]
  have : ∀ a, Spec.ftext a = true → Spec.wsp a = false := by decide +kernel
  exact this a (h.name_chars a (by simp))

theorem folding_no_break (h : Folding x x) : 13 ∉ x := by
  have : ∀ {x w}, Folding x w → 13 ∉ x := by
    intro x w h
    induction h with
    | nil => simp
    | @char b x w hb _ ih =>
      simp only [List.mem_cons, not_or]
      refine ⟨?_, ih⟩
      rintro rfl
      exact absurd hb (by decide)
    | space hw _ _ ih => simp only [List.mem_append, not_or]; exact ⟨wsp_no_cr hw, ih⟩
    | fold hw hw' _ _ _ _ ih =>
      simp only [List.mem_append, not_or]
      exact ⟨⟨wsp_no_cr hw, wsp_no_cr hw'⟩, ih⟩
  exact this h

/-- A field read from a line that is not folded ends with the line. -/
theorem field_unfolded {l r : Bytes} {f : Field} (hl : 13 ∉ l) (ht : Stops Spec.wsp t)
    (h : field c (l ++ 13 :: 10 :: t) = .ok (r, f)) : r = t := by
  have hp := field_parses (c := c) (l ++ 13 :: 10 :: t)
  rw [h] at hp
  obtain ⟨w, hi, hw⟩ := hp
  obtain ⟨⟨u, rfl⟩, -⟩ := field_shape hw
  rcases (field_local (c := c)).cases (w := l) (t := t) (t' := t) ⟨ht, ht⟩ with
    ⟨u', s, v, e, h1, -⟩ | ⟨v, h1, -⟩ | ⟨e, e', h1, -⟩ | ⟨k, h1, -⟩ <;> rw [h] at h1 <;> cases h1
  · exfalso
    dsimp only at hi
    have : l = u ++ [13, 10] ++ s := by
      have : l ++ 13 :: 10 :: t = (u ++ [13, 10] ++ s) ++ 13 :: 10 :: t := by rw [hi]; simp
      exact List.append_cancel_right this
    rw [this] at hl
    simp at hl
  · rfl

theorem field_plain {l : Bytes} (h : PlainLine c l) (ht : Stops Spec.wsp t) :
    (∃ k, field c (l ++ t) = .abort k) ∨ ∃ f, field c (l ++ t) = .ok (t, f) := by
  obtain ⟨name, x, w, h, hcut⟩ := h
  have hf := h.folding
  rw [lineText_eq h]
  rcases field_line (c := c) h.name_ne h.name_chars hf ht with h' | ⟨r, f, h', hr, -⟩ | ⟨v, h', -⟩
  · exact .inl h'
  · refine .inr ⟨f, ?_⟩
    by_cases hc : Spec.CutName c name
    · have := hcut hc
      subst this
      have e : lineText name w t = (name ++ 58 :: w) ++ 13 :: 10 :: t := by simp [lineText]
      rw [e] at h'
      rw [e, h', field_unfolded ?_ ht h']
      simp only [List.mem_append, List.mem_cons, not_or]
      refine ⟨fun h13 => ?_, by decide, folding_no_break hf⟩
      have := h.name_chars 13 h13
      revert this
      decide
    · rw [h', hr hc]
  · exact .inr ⟨_, h'⟩

theorem plain_stops {ls : List Bytes} {tail : Bytes} (h : ∀ l ∈ ls, PlainLine c l) (ht : Ended tail) :
    Stops Spec.wsp (ls.flatten ++ tail) := by
  cases ls with
  | nil => simpa using ht.stops
  | cons l ls =>
    obtain ⟨name, x, w, h, -⟩ := h l (by simp)
    rw [List.flatten_cons, List.append_assoc]
    exact headerText_stops h _

theorem fields_of_lines {tail : Bytes} (ht : Ended tail) : ∀ (ls : List Bytes), (∀ l ∈ ls, PlainLine c l) →
    ∀ n, (ls.flatten ++ tail).length < n →
    (∃ k, manyLoop (field c) n (ls.flatten ++ tail) = .abort k) ∨
    ∃ fs, LinesOf c ls fs ∧ manyLoop (field c) n (ls.flatten ++ tail) = .ok (tail, fs)
  | _, _, 0, hn => by omega
  | [], _, n + 1, _ => by
    obtain ⟨e, he⟩ := field_ended (c := c) ht
    refine .inr ⟨[], .nil, ?_⟩
    simp [manyLoop, he]
  | l :: ls, h, n + 1, hn => by
    have hst := plain_stops (c := c) (fun l hl => h l (by simp [hl])) ht (ls := ls)
    rw [List.flatten_cons, List.append_assoc] at hn ⊢
    unfold manyLoop
    rcases field_plain (h l (by simp)) hst with ⟨k, hk⟩ | ⟨f, hf⟩
    · exact .inl ⟨k, by rw [hk]⟩
    · have hlen := shrinks_of field_progress field_parses _ _ _ hf
      rw [hf]
      dsimp only
      rcases fields_of_lines ht ls (fun l hl => h l (by simp [hl])) n (by omega) with ⟨k, hk⟩ | ⟨fs, hfs, hm⟩
      · exact .inl ⟨k, by rw [hk]; rfl⟩
      · exact .inr ⟨f :: fs, .cons (field_alone hf hst) hfs, by rw [hm]; rfl⟩

/-- The parser stops only between lines. -/
def Steps (c : Cfg) (tail : Bytes) (p : Bytes → Res α) : Prop :=
  ∀ ls : List Bytes, (∀ l ∈ ls, PlainLine c l) → ∀ r v, p (ls.flatten ++ tail) = .ok (r, v) →
    ∃ ls' : List Bytes, ls' <:+ ls ∧ r = ls'.flatten ++ tail

variable {tail : Bytes}

theorem TraceHeader.steps {p : Bytes → Res α} (hp : TraceHeader p) (ht : Ended tail)
    (he : ∃ e, p tail = .err e) : Steps c tail p := by
  intro ls hls r v h
  cases ls with
  | nil =>
    obtain ⟨e, he⟩ := he
    rw [List.flatten_nil, List.nil_append, he] at h
    cases h
  | cons l ls =>
    have hst := plain_stops (c := c) (fun l hl => hls l (by simp [hl])) ht (ls := ls)
    obtain ⟨name, x, w, hl, -⟩ := hls l (by simp)
    rw [List.flatten_cons, List.append_assoc, lineText_eq hl] at h
    obtain ⟨rfl, -⟩ := hp (ftext_colon hl.name_chars) hl.folding hst h
    exact ⟨ls, List.suffix_cons l ls, rfl⟩

theorem Steps.bind {p : Bytes → Res α} {f : Bytes × α → Res β} (hp : Steps c tail p)
    (hf : ∀ v, Steps c tail fun i => f (i, v)) : Steps c tail fun i => p i >>= f := by
  intro ls hls r v h
  obtain ⟨⟨r', v'⟩, h1, h2⟩ := bind_eq_ok.1 h
  obtain ⟨ls', hs, rfl⟩ := hp ls hls r' v' h1
  obtain ⟨ls'', hs', rfl⟩ := hf v' ls' (fun l hl => hls l (hs.subset hl)) r v h2
  exact ⟨ls'', hs'.trans hs, rfl⟩

theorem Steps.ok {v : α} : Steps c tail fun i => .ok (i, v) := by
  intro ls hls r v h
  cases h
  exact ⟨ls, List.suffix_refl ls, rfl⟩

theorem Steps.optional {p : Bytes → Res α} (hp : Steps c tail p) : Steps c tail fun i => optional i p := by
  intro ls hls r v h
  dsimp only at h
  unfold EmailParser.optional at h
  cases hx : p (ls.flatten ++ tail) with
  | ok a => rw [hx] at h; cases h; exact hp ls hls _ _ hx
  | err e => rw [hx] at h; cases h; exact ⟨ls, List.suffix_refl ls, rfl⟩
  | abort k => rw [hx] at h; cases h

theorem Steps.manyLoop {p : Bytes → Res α} (hp : Steps c tail p) :
    ∀ (n : Nat), Steps c tail fun i => manyLoop p n i
  | 0 => by intro ls _ r v h; cases h
  | n + 1 => by
    intro ls hls r v h
    dsimp only at h
    unfold EmailParser.manyLoop at h
    cases hx : p (ls.flatten ++ tail) with
    | ok a =>
      obtain ⟨r', v'⟩ := a
      rw [hx] at h
      obtain ⟨⟨r₂, v₂⟩, h1, h2⟩ := bind_eq_ok.1 h
      cases h2
      obtain ⟨ls', hs, rfl⟩ := hp ls hls r' v' hx
      obtain ⟨ls'', hs', e⟩ := Steps.manyLoop hp n ls' (fun l hl => hls l (hs.subset hl)) _ v₂ h1
      exact ⟨ls'', hs'.trans hs, e⟩
    | err e => rw [hx] at h; cases h; exact ⟨ls, List.suffix_refl ls, rfl⟩
    | abort k => rw [hx] at h; cases h

theorem Steps.many {p : Bytes → Res α} (hp : Steps c tail p) : Steps c tail fun i => many i p := by
  intro ls hls r v h
  exact hp.manyLoop _ ls hls r v h

theorem Steps.many1 {p : Bytes → Res α} (hp : Steps c tail p) : Steps c tail fun i => many1 i p := by
  intro ls hls r v h
  obtain ⟨⟨r', v'⟩, h1, h2⟩ := bind_eq_ok.1 h
  obtain ⟨⟨r₂, v₂⟩, h3, h4⟩ := bind_eq_ok.1 h2
  cases h4
  obtain ⟨ls', hs, rfl⟩ := hp ls hls r' v' h1
  obtain ⟨ls'', hs', e⟩ := Steps.manyLoop hp _ ls' (fun l hl => hls l (hs.subset hl)) _ v₂ h3
  exact ⟨ls'', hs'.trans hs, e⟩

theorem traces_steps (ht : Ended tail) : Steps c tail (traces c) := by
  have hq : Quiet c tail := ht.quiet
  unfold traces
  split
  · refine Steps.many ?_
    show Steps c tail fun i => traceBlock c i
    unfold traceBlock
    refine Steps.bind ?_ fun v => ?_
    · unfold trace
      refine Steps.bind (returnPath_trace.steps ht hq.returnPath).optional fun v => ?_
      exact Steps.bind (received_trace.steps ht hq.received).many1 fun v => Steps.ok
    · exact Steps.bind (traceFields_trace.steps ht hq.resent).many fun v => Steps.ok
  · exact Steps.ok

/-- A block of header lines is read to its end. -/
theorem fields_plain (ht : Ended tail) (ls : List Bytes) (h : ∀ l ∈ ls, PlainLine c l) :
    (∃ k, fields c (ls.flatten ++ tail) = .abort k) ∨
    ∃ ts pre post fs, ls = pre ++ post ∧ traces c (ls.flatten ++ tail) = .ok (post.flatten ++ tail, ts) ∧
      LinesOf c post fs ∧ fields c (ls.flatten ++ tail) = .ok (tail, ts ++ fs) := by
  unfold fields
  cases hx : traces c (ls.flatten ++ tail) with
  | abort k => exact .inl ⟨k, rfl⟩
  | err e =>
    exfalso
    unfold traces at hx
    split at hx
    · exact manyLoop_no_err _ _ _ hx
    · cases hx
  | ok a =>
    obtain ⟨r, ts⟩ := a
    obtain ⟨post, ⟨pre, hpre⟩, rfl⟩ := traces_steps ht ls h r ts hx
    have hpost : ∀ l ∈ post, PlainLine c l := fun l hl => h l (by rw [← hpre]; simp [hl])
    simp only [ok_bind]
    rcases fields_of_lines ht post hpost _ (Nat.lt_succ_self _) with ⟨k, hk⟩ | ⟨fs, hfs, hm⟩
    · exact .inl ⟨k, by rw [many, hk]; rfl⟩
    · exact .inr ⟨ts, pre, post, fs, hpre.symm, rfl, hfs, by rw [many, hm]; rfl⟩

end EmailParser
