import Verif.Proofs.Complete.Lexical
/-
Comments and folding white space of the grammar are skipped entirely.
-/
namespace EmailParser
open Spec (Gram)

variable {α β : Type} {c : Cfg}

theorem fws_head {w v : Bytes} (h : Spec.Fws w v) :
    ∃ b t, w = b :: t ∧ (Spec.wsp b = true ∨ b = 13) := by
  rcases h with ⟨_, _, a, rfl, ⟨rfl, ha⟩, _, _, ⟨⟩, rfl, rfl, _, _, b, rfl, ⟨rfl, hne, hb⟩, rfl, rfl⟩ |
    ⟨rfl, hne, h⟩
  · cases a with
    | nil => exact ⟨13, _, rfl, .inr rfl⟩
    | cons x a => exact ⟨x, _, rfl, .inl (ha x (by simp))⟩
  · cases v with
    | nil => exact absurd rfl hne
    | cons x v => exact ⟨x, v, rfl, .inl (h x (by simp))⟩

/-- Folding white space ends with white space. -/
theorem fws_last {w v : Bytes} (h : Spec.Fws w v) : ∃ u b, w = u ++ [b] ∧ Spec.wsp b = true := by
  have key : ∀ l : Bytes, l ≠ [] → (∀ x ∈ l, Spec.wsp x = true) →
      ∃ u b, l = u ++ [b] ∧ Spec.wsp b = true := by
    intro l hne hl
    exact ⟨l.dropLast, l.getLast hne, (List.dropLast_concat_getLast hne).symm,
      hl _ (List.getLast_mem hne)⟩
  rcases h with ⟨_, _, a, rfl, ⟨rfl, ha⟩, _, _, ⟨⟩, rfl, rfl, _, _, b, rfl, ⟨rfl, hne, hb⟩, rfl, rfl⟩ |
    ⟨rfl, hne, h⟩
  · obtain ⟨u, x, rfl, hx⟩ := key b hne hb
    exact ⟨a ++ (Spec.CRLF ++ u), x, by simp, hx⟩
  · exact key v hne h

/-- The text starts neither with white space nor with a CRLF. -/
def NoSpace (r : Bytes) : Prop := Stops Spec.wsp r ∧ ¬ Spec.CRLF <+: r

theorem NoSpace.noFws {r : Bytes} (h : NoSpace r) : NoFws r := noFws_of h.1 h.2

theorem noSpace_cons {b : UInt8} {t : Bytes} (h : Spec.wsp b = false) (h' : b ≠ 13) :
    NoSpace (b :: t) :=
  ⟨stops_cons.mpr h, fun hp => by
    rw [List.cons_prefix_cons] at hp
    exact h' hp.1.symm⟩

theorem noSpace_append {b : UInt8} {t w r : Bytes} (e : w = b :: t) (h : Spec.wsp b = false)
    (h' : b ≠ 13) : NoSpace (w ++ r) := by
  subst e
  exact noSpace_cons h h'

theorem optFws_append {w r : Bytes} {o : Option Bytes} (h : Gram.opt Spec.Fws w o)
    (hr : NoSpace r) : optional (w ++ r) fws = .ok (r, o) := by
  rcases h with ⟨rfl, rfl⟩ | ⟨v, rfl, h⟩
  · exact optional_err hr.noFws.err
  · exact optional_ok (fws_append h hr.1 hr.2)

theorem fwsOrEmpty_append {w v r : Bytes} (h : Spec.OptFws w v)
    (hr : NoSpace r) : fwsOrEmpty (w ++ r) = .ok (r, v) := by
  obtain ⟨o, rfl, h⟩ := h
  unfold fwsOrEmpty
  rcases h with ⟨rfl, rfl⟩ | ⟨v, rfl, h⟩
  · obtain ⟨e, he⟩ := hr.noFws.err
    simp [he]
  · simp [fws_append h hr.1 hr.2]

/-! ### Comments -/

theorem ctext_noSpace : ∀ b : UInt8, Spec.ctext b = true → Spec.wsp b = false ∧ b ≠ 13 := by
  decide +kernel

theorem space_not_ctext : ∀ b : UInt8, Spec.wsp b = true ∨ b = 13 → Spec.ctext b = false := by
  decide +kernel

/-- How an element of a comment starts. -/
theorem ccontent_head {K : Gram Unit} (hK : ∀ w v, K w v → ∃ t, w = 40 :: t) {w : Bytes} {v : Unit}
    (h : Spec.CContent K w v) : ∃ b t, w = b :: t ∧ Spec.wsp b = false ∧ b ≠ 13 := by
  rcases h with ⟨v, rfl, hne, h⟩ | ⟨v, _, _, _, rfl, rfl, -⟩ | h
  · cases v with
    | nil => exact absurd rfl hne
    | cons x v => exact ⟨x, v, rfl, ctext_noSpace x (h x (by simp))⟩
  · exact ⟨92, _, rfl, by decide, by decide⟩
  · obtain ⟨t, rfl⟩ := hK _ _ h
    exact ⟨40, t, rfl, by decide, by decide⟩

theorem commentN_head : ∀ n w v, Spec.CommentN n w v → ∃ t, w = 40 :: t
  | 0, _, _, h => h.elim
  | _ + 1, _, _, ⟨_, w₂, _, rfl, rfl, _⟩ => ⟨w₂, rfl⟩

/-- One element of a comment. -/
def CommentPart (K : Gram Unit) : Gram Unit := do
  let _ ← Gram.opt Spec.Fws
  Spec.CContent K

/-- A run of `ctext` at the start of a comment body can be dropped. -/
theorem commentParts_residual {K : Gram Unit} (hK : ∀ w v, K w v → ∃ t, w = 40 :: t) {r : Bytes}
    (hr : Stops Spec.ctext r) {s : Bytes} {vs : List Unit} (h : Gram.star (CommentPart K) s vs) :
    ∃ y s' vs', s = y ++ s' ∧ (∀ x ∈ y, Spec.ctext x = true) ∧
      Gram.star (CommentPart K) s' vs' ∧ Stops Spec.ctext (s' ++ r) := by
  induction h with
  | nil => exact ⟨[], [], [], rfl, by simp, .nil, hr⟩
  | cons hp hs ih =>
    rename_i w₁ w₂ a as
    obtain ⟨f, x, o, rfl, hf, hx⟩ := hp
    have hstop : ∀ b t, f ++ x = b :: t → Spec.ctext b = false →
        ∃ y s' vs', f ++ x ++ w₂ = y ++ s' ∧ (∀ x ∈ y, Spec.ctext x = true) ∧
          Gram.star (CommentPart K) s' vs' ∧ Stops Spec.ctext (s' ++ r) := by
      intro b t e hb
      refine ⟨[], f ++ x ++ w₂, a :: as, rfl, by simp, .cons ⟨f, x, o, rfl, hf, hx⟩ hs, ?_⟩
      rw [e]
      exact stops_cons.mpr hb
    rcases hf with ⟨rfl, rfl⟩ | ⟨v, rfl, hf⟩
    · rcases hx with ⟨v, rfl, hne, hv⟩ | ⟨v, _, _, _, rfl, rfl, -⟩ | hx
      · obtain ⟨y, s', vs', rfl, hy, hs', hstop⟩ := ih
        refine ⟨v ++ y, s', vs', by simp, ?_, hs', hstop⟩
        intro x hx
        rcases List.mem_append.mp hx with hx | hx
        · exact hv x hx
        · exact hy x hx
      · exact hstop 92 _ rfl (by decide)
      · obtain ⟨t, rfl⟩ := hK _ _ hx
        exact hstop 40 t rfl (by decide)
    · obtain ⟨b, t, rfl, hb⟩ := fws_head hf
      exact hstop b (t ++ x) rfl (space_not_ctext b hb)

theorem quotedPair_append {w v r : Bytes} (h : Spec.QuotedPair w v) :
    quotedPair (w ++ r) = .ok (r, v) := by
  obtain ⟨_, _, _, rfl, rfl, _, _, x, rfl, ⟨rfl, hx⟩, rfl, rfl⟩ := h
  unfold quotedPair
  have := tag_append (b! "\\") (x :: r) "TAG ERROR: A quoted pair must start with a `\\`."
  simp only [List.cons_append, List.nil_append, List.append_nil] at this ⊢
  rw [this]
  simp only [ok_bind]
  rw [isVchar_eq, isWsp_eq, if_pos hx]
  have a := getUncheckedFrom_append [x] r
  have b := getUncheckedTo_append [x] r
  simp only [List.cons_append, List.nil_append, List.length_cons, List.length_nil, Nat.zero_add]
    at a b
  simp only [a, b, ok_bind]

theorem quotedPair_err {b : UInt8} {t : Bytes} (h : b ≠ 92) : ∃ e, quotedPair (b :: t) = .err e := by
  unfold quotedPair
  rw [tag_cons_err h]
  exact ⟨_, rfl⟩

theorem comment_err {n : Nat} {r : Bytes} (h : Stops (· == 40) r) : ∃ e, comment n r = .err e := by
  have : ∃ e, tag r (b! "(") "TAG ERROR: A comment must start with a `(`." = .err e := by
    cases r with
    | nil => exact ⟨_, tag_nil_err⟩
    | cons b t => exact ⟨_, tag_cons_err (by simpa using stops_cons.mp h)⟩
  obtain ⟨e, he⟩ := this
  cases n with
  | zero => unfold comment; rw [he]; exact ⟨_, rfl⟩
  | succ n => unfold comment; rw [he]; exact ⟨_, rfl⟩

/-- The body of a comment, if nested comments are parsed completely. -/
theorem commentLoop_append {n : Nat}
    (hn : ∀ w r, Spec.CommentN n w () → comment n (w ++ r) = .ok (r, [])) :
    ∀ (fuel : Nat) (s f r : Bytes) (vs : List Unit) (o : Option Bytes), s.length < fuel →
      Gram.star (CommentPart (Spec.CommentN n)) s vs → Gram.opt Spec.Fws f o →
      ignoreManyLoop (fun input => pair input (fun i => optional i fws) (ccontent (comment n))) fuel
        (s ++ (f ++ 41 :: r)) = .ok (f ++ 41 :: r, ())
  | 0, _, _, _, _, _, h, _, _ => by omega
  | fuel + 1, s, f, r, vs, o, h, hs, hf => by
    have hstop : Stops Spec.ctext (f ++ 41 :: r) := by
      rcases hf with ⟨rfl, rfl⟩ | ⟨v, rfl, hf⟩
      · exact stops_cons.mpr (by decide)
      · obtain ⟨b, t, rfl, hb⟩ := fws_head hf
        exact stops_cons.mpr (space_not_ctext b hb)
    unfold ignoreManyLoop
    cases hs with
    | nil =>
      have h1 := optFws_append hf (r := 41 :: r) (noSpace_cons (by decide) (by decide))
      have h2 : ∃ e, ccontent (comment n) (41 :: r) = .err e := by
        unfold ccontent
        obtain ⟨e1, he1⟩ := takeWhile1_err (p := Spec.ctext) (r := 41 :: r)
          (stops_cons.mpr (by decide))
        obtain ⟨e2, he2⟩ := quotedPair_err (b := 41) (t := r) (by decide)
        obtain ⟨e3, he3⟩ := comment_err (n := n) (r := 41 :: r) (stops_cons.mpr (by decide))
        simp only [matchParsers, isCtext_eq, he1, err_bind, he2, he3]
        exact ⟨_, rfl⟩
      obtain ⟨e, he⟩ := h2
      simp only [pair, List.nil_append, h1, ok_bind, he, err_bind]
    | cons hp hs =>
      rename_i w₁ w₂ a as
      obtain ⟨g, x, o', rfl, hg, hx⟩ := hp
      obtain ⟨b, t, hbt, hb1, hb2⟩ := ccontent_head (commentN_head n) hx
      have h1 : optional (g ++ x ++ w₂ ++ (f ++ 41 :: r)) fws =
          .ok (x ++ (w₂ ++ (f ++ 41 :: r)), o') := by
        have := optFws_append hg (r := x ++ (w₂ ++ (f ++ 41 :: r))) (noSpace_append hbt hb1 hb2)
        simpa using this
      simp only [pair, h1, ok_bind]
      have hlen : 0 < x.length := by rw [hbt]; simp
      simp only [List.length_append] at h
      rcases hx with ⟨v, rfl, hne, hv⟩ | ⟨v, hx⟩ | hx
      · obtain ⟨y, s', vs', rfl, hy, hs', hst⟩ :=
          commentParts_residual (commentN_head n) hstop hs
        have h2 : ccontent (comment n) (v ++ (y ++ s' ++ (f ++ 41 :: r))) =
            .ok (s' ++ (f ++ 41 :: r), v ++ y) := by
          unfold ccontent
          have := takeWhile1_ok (p := Spec.ctext) (w := v ++ y) (r := s' ++ (f ++ 41 :: r))
            (by simp [hne]) (by
              intro x hx
              rcases List.mem_append.mp hx with hx | hx
              · exact hv x hx
              · exact hy x hx) hst
          simp only [List.append_assoc] at this
          simp only [matchParsers, isCtext_eq, List.append_assoc, this, ok_bind]
        rw [h2]
        exact commentLoop_append hn fuel s' f r vs' o
          (by simp only [List.length_append] at h; omega) hs' hf
      · have h2 : ccontent (comment n) (x ++ (w₂ ++ (f ++ 41 :: r))) =
            .ok (w₂ ++ (f ++ 41 :: r), v) := by
          unfold ccontent
          have hq := quotedPair_append (r := w₂ ++ (f ++ 41 :: r)) hx
          have : ∃ e, takeWhile1 (x ++ (w₂ ++ (f ++ 41 :: r))) Spec.ctext = .err e := by
            obtain ⟨_, _, _, rfl, rfl, -⟩ := hx
            exact takeWhile1_err (stops_cons.mpr (by decide))
          obtain ⟨e, he⟩ := this
          simp only [matchParsers, isCtext_eq, he, err_bind, hq]
        rw [h2]
        exact commentLoop_append hn fuel w₂ f r as o (by omega) hs hf
      · have h2 : ccontent (comment n) (x ++ (w₂ ++ (f ++ 41 :: r))) =
            .ok (w₂ ++ (f ++ 41 :: r), []) := by
          unfold ccontent
          have hc := hn x (w₂ ++ (f ++ 41 :: r)) hx
          obtain ⟨t, rfl⟩ := commentN_head _ _ _ hx
          obtain ⟨e1, he1⟩ := takeWhile1_err (p := Spec.ctext) (r := 40 :: t ++ (w₂ ++ (f ++ 41 :: r)))
            (stops_cons.mpr (by decide))
          obtain ⟨e2, he2⟩ := quotedPair_err (b := 40) (t := t ++ (w₂ ++ (f ++ 41 :: r))) (by decide)
          simp only [matchParsers, isCtext_eq, he1, err_bind, List.cons_append, he2] at hc he1 ⊢
          simp only [hc]
        rw [h2]
        exact commentLoop_append hn fuel w₂ f r as o (by omega) hs hf

/-- A comment that is not nested too deeply. -/
theorem comment_append : ∀ (n : Nat) (w r : Bytes), Spec.CommentN n w () →
    comment n (w ++ r) = .ok (r, [])
  | 0, _, _, h => h.elim
  | n + 1, w, r, h => by
    obtain ⟨_, _, _, rfl, rfl, s, _, vs, rfl, hs, f, _, o, rfl, hf, rfl⟩ := h
    unfold comment
    have e : b! "(" ++ (s ++ (f ++ b! ")")) ++ r = b! "(" ++ (s ++ (f ++ 41 :: r)) := by simp
    rw [e, tag_append]
    simp only [ok_bind]
    have h1 := commentLoop_append (comment_append n) ((s ++ (f ++ 41 :: r)).length + 1) s f r vs o
      (by simp; omega) hs hf
    unfold ignoreMany
    rw [h1]
    simp only [ok_bind]
    rw [optFws_append hf (noSpace_cons (by decide) (by decide))]
    simp only [ok_bind]
    have := tag_append (b! ")") r "TAG ERROR: A comment must end with a `)`."
    simp only [List.cons_append, List.nil_append] at this
    rw [this]
    rfl

/-- The depth of a comment is at most the number of its opening parentheses. -/
theorem commentN_count : ∀ (n : Nat) (w : Bytes) (m : Nat), Spec.CommentN n w () →
    w.count 40 ≤ m → Spec.CommentN m w ()
  | 0, _, _, h, _ => h.elim
  | n + 1, w, m, h, hm => by
    obtain ⟨_, _, _, rfl, rfl, s, _, vs, rfl, hs, f, _, o, rfl, hf, rfl⟩ := h
    cases m with
    | zero => simp at hm
    | succ m =>
      refine ⟨_, _, (), rfl, rfl, s, _, vs, rfl, ?_, f, _, o, rfl, hf, rfl⟩
      have hle : s.count 40 ≤ m := by
        simp only [List.count_append] at hm
        have : List.count 40 (b! "(") = 1 := by decide
        omega
      clear hm hf
      induction hs with
      | nil => exact .nil
      | cons hp hs ih =>
        rename_i w₁ w₂ a as
        simp only [List.count_append] at hle
        refine .cons ?_ (ih (by omega))
        obtain ⟨g, x, o', rfl, hg, hx⟩ := hp
        refine ⟨g, x, o', rfl, hg, ?_⟩
        rcases hx with hx | hx | hx
        · exact .inl hx
        · exact .inr (.inl hx)
        · refine .inr (.inr (commentN_count n x m hx ?_))
          simp only [List.count_append] at hle
          omega

theorem comment_append' {n : Nat} {w r : Bytes} (h : Spec.Comment w ()) (hn : w.count 40 ≤ n) :
    comment n (w ++ r) = .ok (r, []) := by
  obtain ⟨m, h⟩ := h
  exact comment_append n w r (commentN_count m w n h hn)

/-! ### CFWS -/

/-- What may follow white space and comments `w` so that they are skipped exactly. A white space
before the end of a line is a defect of `fws`: it is not skipped. -/
def CfwsEnd (w r : Bytes) : Prop :=
  Stops (fun b => Spec.wsp b || b == 40) r ∧
    ∀ t, r = 13 :: 10 :: t → Stops Spec.wsp t ∧ ∀ u b, w = u ++ [b] → Spec.wsp b = false

theorem CfwsEnd.stops {w r : Bytes} (h : CfwsEnd w r) : Stops Spec.wsp r := by
  intro b t e
  have := h.1 b t e
  simp only [Bool.or_eq_false_iff] at this
  exact this.1

theorem CfwsEnd.open {w r : Bytes} (h : CfwsEnd w r) : Stops (· == 40) r := by
  intro b t e
  have := h.1 b t e
  simp only [Bool.or_eq_false_iff] at this
  exact this.2

theorem CfwsEnd.noFws {w r : Bytes} (h : CfwsEnd w r) : NoFws r :=
  ⟨h.stops, fun t e => (h.2 t e).1⟩

theorem CfwsEnd.suffix {u w r : Bytes} (h : CfwsEnd (u ++ w) r) : CfwsEnd w r :=
  ⟨h.1, fun t e => ⟨(h.2 t e).1, fun u' b e' => (h.2 t e).2 (u ++ u') b (by simp [e'])⟩⟩

theorem cfwsEnd_nil {r : Bytes} (h : NoFws r) (h' : Stops (· == 40) r) : CfwsEnd [] r :=
  ⟨fun b t e => by simp only [h.1 b t e, h' b t e, Bool.or_false],
    fun t e => ⟨h.2 t e, fun u b e' => by simp at e'⟩⟩

theorem cfwsEnd_cons {w t : Bytes} {b : UInt8} (h : Spec.wsp b = false) (h1 : b ≠ 40)
    (h2 : b ≠ 13) : CfwsEnd w (b :: t) :=
  ⟨stops_cons.mpr (by simp [h, h1]), fun t e => by
    simp only [List.cons.injEq] at e
    exact absurd e.1 h2⟩

/-- Folding white space that is followed by something else. -/
theorem CfwsEnd.noSpace {w v r : Bytes} (hw : Spec.Fws w v) (h : CfwsEnd w r) : NoSpace r := by
  refine ⟨h.stops, fun hp => ?_⟩
  obtain ⟨t, rfl⟩ := hp
  obtain ⟨u, b, rfl, hb⟩ := fws_last hw
  have := (h.2 t rfl).2 u b rfl
  rw [this] at hb
  cases hb

theorem CfwsEnd.optFws {w r : Bytes} {o : Option Bytes} (hw : Gram.opt Spec.Fws w o)
    (h : CfwsEnd w r) : optional (w ++ r) fws = .ok (r, o) := by
  rcases hw with ⟨rfl, rfl⟩ | ⟨v, rfl, hw⟩
  · exact optional_err h.noFws.err
  · exact optFws_append (.inr ⟨v, rfl, hw⟩) (CfwsEnd.noSpace hw h)

/-- A comment with the white space before it. -/
def FwsThenComment (n : Nat) : Gram Unit := do
  let _ ← Gram.opt Spec.Fws
  Spec.CommentN n

theorem comment_noSpace {n : Nat} {w r : Bytes} (h : Spec.CommentN n w ()) : NoSpace (w ++ r) := by
  obtain ⟨t, rfl⟩ := commentN_head n _ _ h
  exact noSpace_cons (by decide) (by decide)

theorem realCfwsLoop_append {f r : Bytes} {o : Option Bytes} (hf : Gram.opt Spec.Fws f o)
    (hr : CfwsEnd f r) : ∀ (fuel : Nat) (s : Bytes) (vs : List Unit), s.length < fuel →
      Gram.star (FwsThenComment c.stack) s vs →
      ∃ v, realCfwsLoop c fuel (s ++ (f ++ r)) = .ok (f ++ r, v)
  | 0, _, _, h, _ => by omega
  | fuel + 1, s, vs, h, hs => by
    unfold realCfwsLoop
    cases hs with
    | nil =>
      simp only [List.nil_append, CfwsEnd.optFws hf hr, ok_bind]
      obtain ⟨e, he⟩ := comment_err (n := c.stack) hr.open
      simp only [he]
      exact ⟨_, rfl⟩
    | cons hp hs =>
      rename_i w₁ w₂ a as
      obtain ⟨g, x, o', rfl, hg, hx⟩ := hp
      have h1 := optFws_append hg (r := x ++ (w₂ ++ (f ++ r))) (comment_noSpace hx)
      have h2 := comment_append c.stack x (w₂ ++ (f ++ r)) hx
      have h3 : 0 < x.length := by
        obtain ⟨t, rfl⟩ := commentN_head _ _ _ hx
        simp
      simp only [List.length_append] at h
      obtain ⟨v, hv⟩ := realCfwsLoop_append hf hr fuel w₂ as (by omega) hs
      simp only [List.append_assoc, h1, ok_bind, h2, hv]
      exact ⟨_, rfl⟩

theorem cfws_append {w r : Bytes} (h : Spec.CfwsOf (Spec.CommentN c.stack) w ()) (hr : CfwsEnd w r) :
    ∃ v, cfws c (w ++ r) = .ok (r, v) := by
  unfold cfws matchParsers
  rcases h with ⟨s, _, vs, rfl, ⟨u, s', a, rfl, ⟨g, x, o', rfl, hg, hx⟩, s'', _, as, rfl, hs, rfl, rfl⟩,
    f, _, o, rfl, hf, rfl, _⟩ | ⟨v, h⟩
  · have h1 := optFws_append hg (r := x ++ (s'' ++ (f ++ r))) (comment_noSpace hx)
    have h2 := comment_append c.stack x (s'' ++ (f ++ r)) hx
    have hr' : CfwsEnd f r := by
      have := hr
      simp only [List.append_nil] at this
      exact this.suffix
    obtain ⟨v, hv⟩ := realCfwsLoop_append (c := c) hf hr' ((s'' ++ (f ++ r)).length + 1) s'' as
      (by simp only [List.length_append]; omega) hs
    unfold realCfws
    simp only [List.append_assoc, List.append_nil, h1, ok_bind, h2, hv, CfwsEnd.optFws hf hr']
    exact ⟨_, rfl⟩
  · have h1 := fws_append h hr.stops (CfwsEnd.noSpace h hr).2
    obtain ⟨e, he⟩ := comment_err (n := c.stack) hr.open
    unfold realCfws
    simp only [optional_ok h1, ok_bind, he, matchParsers, h1]
    exact ⟨_, rfl⟩

theorem cfws_none {r : Bytes} (h : NoFws r) (h' : Stops (· == 40) r) : ∃ e, cfws c r = .err e := by
  obtain ⟨e, he⟩ := comment_err (n := c.stack) h'
  obtain ⟨e', he'⟩ := h.err
  unfold cfws realCfws
  simp only [matchParsers, optional_err h.err, ok_bind, he, he']
  exact ⟨_, rfl⟩

/-- Optional comments and white space are skipped exactly. -/
theorem skipCfws_append {w r : Bytes} (h : Spec.Gap c w ()) (hr : CfwsEnd w r) :
    skipCfws c (w ++ r) = .ok r := by
  unfold skipCfws
  obtain ⟨o, h⟩ := h
  rcases h with ⟨rfl, rfl⟩ | ⟨v, rfl, h⟩
  · obtain ⟨e, he⟩ := cfws_none (c := c) hr.noFws hr.open
    simp only [List.nil_append, he]
  · obtain ⟨v, hv⟩ := cfws_append h hr
    simp only [hv]

theorem skipCfws_none {r : Bytes} (h : NoFws r) (h' : Stops (· == 40) r) : skipCfws c r = .ok r := by
  obtain ⟨e, he⟩ := cfws_none (c := c) h h'
  simp only [skipCfws, he]

/-- The grammar grows with the grammar of comments. -/
theorem optCfwsOf_mono {K K' : Gram Unit} {w : Bytes} (h : Spec.OptCfwsOf K w ())
    (hK : ∀ x, x <:+: w → K x () → K' x ()) : Spec.OptCfwsOf K' w () := by
  have key : ∀ {s : Bytes} {vs : List Unit}, (∀ x, x <:+: s → K x () → K' x ()) →
      Gram.star (do let _ ← Gram.opt Spec.Fws; K) s vs →
      Gram.star (do let _ ← Gram.opt Spec.Fws; K') s vs := by
    intro s vs hK h
    induction h with
    | nil => exact .nil
    | cons hp hs ih =>
      obtain ⟨g, x, o, rfl, hg, hx⟩ := hp
      exact .cons ⟨g, x, o, rfl, hg, hK _ ⟨g, _, rfl⟩ hx⟩
        (ih fun x hx => hK x (hx.trans (List.suffix_append _ _).isInfix))
  obtain ⟨o, h⟩ := h
  refine ⟨o, h.imp id ?_⟩
  rintro ⟨v, rfl, h'⟩
  refine ⟨v, rfl, h'.imp ?_ id⟩
  rintro ⟨s, t, vs, rfl, ⟨u, s', a, rfl, ⟨g, x, o', rfl, hg, hx⟩, s'', e, as, rfl, hs, rfl, rfl⟩, h''⟩
  refine ⟨_, t, _, rfl, ⟨_, s'' ++ [], _, rfl, ⟨g, x, o', rfl, hg, hK x ⟨g, s'' ++ [] ++ t, by simp⟩ hx⟩,
    s'', [], _, rfl, key ?_ hs, rfl, rfl⟩, h''⟩
  intro x' hx'
  exact hK x' (hx'.trans ⟨g ++ x, [] ++ t, by simp⟩)

/-- A text has at most as many levels of comments as it has opening parentheses. -/
theorem gap_of_count {w : Bytes} (h : Spec.OptCfws w ()) (hn : w.count 40 ≤ c.stack) :
    Spec.Gap c w () :=
  optCfwsOf_mono h fun x hx ⟨m, hm⟩ =>
    commentN_count m x _ hm (Nat.le_trans (hx.sublist.count_le _) hn)

theorem Gap.optCfws {w : Bytes} (h : Spec.Gap c w ()) : Spec.OptCfws w () :=
  optCfwsOf_mono h fun _ _ h => ⟨_, h⟩

end EmailParser
