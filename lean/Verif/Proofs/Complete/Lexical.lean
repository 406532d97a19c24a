import Verif.Proofs.Sound.Fields
/-
What the lexical parsers return on texts of the grammar: white space, comments, runs of characters.
-/
namespace EmailParser
open Spec (Gram)

variable {α β : Type} {c : Cfg}

/-- The text does not start with a character of the class. -/
def Stops (p : UInt8 → Bool) (r : Bytes) : Prop := ∀ b t, r = b :: t → p b = false

theorem stops_nil {p : UInt8 → Bool} : Stops p [] := fun _ _ h => by cases h

theorem stops_cons {p : UInt8 → Bool} {b : UInt8} {t : Bytes} : Stops p (b :: t) ↔ p b = false :=
  ⟨fun h => h b t rfl, fun h b' t' e => by cases e; exact h⟩

theorem Stops.takeWhile {p : UInt8 → Bool} {r : Bytes} (h : Stops p r) :
    r.takeWhile p = [] ∧ r.dropWhile p = r := by
  cases r with
  | nil => simp
  | cons b t => simp [stops_cons.mp h]

theorem takeWhile_run {p : UInt8 → Bool} {w r : Bytes} (hw : ∀ x ∈ w, p x = true)
    (hr : Stops p r) : (w ++ r).takeWhile p = w ∧ (w ++ r).dropWhile p = r := by
  induction w with
  | nil => exact hr.takeWhile
  | cons a w ih =>
    have ha := hw a (by simp)
    obtain ⟨h1, h2⟩ := ih fun x hx => hw x (by simp [hx])
    simp [ha, h1, h2]

theorem takeWhile_ok {p : UInt8 → Bool} {w r : Bytes} (hw : ∀ x ∈ w, p x = true)
    (hr : Stops p r) : takeWhile (w ++ r) p = .ok (r, w) := by
  obtain ⟨h1, h2⟩ := takeWhile_run hw hr
  rw [takeWhile_eq, h1, h2]

theorem takeWhile1_ok {p : UInt8 → Bool} {w r : Bytes} (hne : w ≠ []) (hw : ∀ x ∈ w, p x = true)
    (hr : Stops p r) : takeWhile1 (w ++ r) p = .ok (r, w) := by
  obtain ⟨h1, h2⟩ := takeWhile_run hw hr
  rw [takeWhile1_eq, h1, h2, if_neg hne]

theorem takeWhile1_err {p : UInt8 → Bool} {r : Bytes} (hr : Stops p r) :
    ∃ e, takeWhile1 r p = .err e := by
  rw [takeWhile1_eq, hr.takeWhile.1, if_pos rfl]
  exact ⟨_, rfl⟩

/-- `take_while1` either fails at a character outside of the class or takes the whole run. -/
theorem takeWhile1_cases (p : UInt8 → Bool) (i : Bytes) :
    (Stops p i ∧ ∃ e, takeWhile1 i p = .err e) ∨
    ∃ w r, i = w ++ r ∧ w ≠ [] ∧ (∀ x ∈ w, p x = true) ∧ Stops p r ∧ takeWhile1 i p = .ok (r, w) := by
  cases i with
  | nil => exact .inl ⟨stops_nil, takeWhile1_err stops_nil⟩
  | cons b t =>
    cases hb : p b with
    | false => exact .inl ⟨stops_cons.mpr hb, takeWhile1_err (stops_cons.mpr hb)⟩
    | true =>
      refine .inr ⟨(b :: t).takeWhile p, (b :: t).dropWhile p,
        List.takeWhile_append_dropWhile.symm, by simp [hb], fun x hx => mem_takeWhile hx, ?_, ?_⟩
      · intro b' t' h
        have := List.head?_dropWhile_not p (b :: t)
        rw [h] at this
        simpa using this
      · rw [takeWhile1_eq, if_neg (by simp [hb])]

/-! ### Literal texts -/

theorem tag_cons_err {b b' : UInt8} {s t : Bytes} {m : String} (h : b ≠ b') :
    tag (b :: t) (b' :: s) m = .err (.explicit m) :=
  tag_err fun h' => by
    rw [List.cons_prefix_cons] at h'
    exact h h'.1.symm

theorem tag_nil_err {b' : UInt8} {s : Bytes} {m : String} :
    tag [] (b' :: s) m = .err (.explicit m) :=
  tag_err (by simp)

/-! ### Folding white space -/

/-- No folding white space starts here. -/
def NoFws (r : Bytes) : Prop := Stops Spec.wsp r ∧ ∀ t, r = 13 :: 10 :: t → Stops Spec.wsp t

theorem fws_eq (i : Bytes) : fws i =
    if Spec.CRLF <+: i.dropWhile Spec.wsp then
      (takeWhile1 ((i.dropWhile Spec.wsp).drop 2) Spec.wsp).bind fun r =>
        .ok (r.1, i.takeWhile Spec.wsp ++ r.2)
    else (takeWhile1 i Spec.wsp) := by
  unfold fws
  rw [isWsp_eq]
  simp only [pair, takeWhile_eq, ok_bind]
  rcases tag_cases (i.dropWhile Spec.wsp) (b! "\r\n")
      "TAG ERROR: A folding whitespace must end with a `\\r\\n` sequence." with
    ⟨r, hr, ht⟩ | ⟨hn, ht⟩
  · rw [if_pos ⟨r, hr.symm⟩]
    simp only [optional, ht, ok_bind]
    rw [hr]
    show (takeWhile1 r Spec.wsp).bind _ = (takeWhile1 r Spec.wsp).bind _
    congr 1
  · rw [if_neg hn]
    have : optional i (fun input => (tag (List.dropWhile Spec.wsp input) (b! "\r\n")
        "TAG ERROR: A folding whitespace must end with a `\\r\\n` sequence.") >>= fun x =>
          (Outcome.ok (x.1, List.takeWhile Spec.wsp input, x.2))) = .ok (i, none) := by
      simp only [optional, ht]; rfl
    rw [this]
    show (takeWhile1 i Spec.wsp).bind _ = takeWhile1 i Spec.wsp
    cases takeWhile1 i Spec.wsp <;> rfl

theorem NoFws.err {r : Bytes} (h : NoFws r) : ∃ e, fws r = .err e := by
  rw [fws_eq, h.1.takeWhile.2, h.1.takeWhile.1]
  split
  · rename_i hp
    obtain ⟨t, rfl⟩ := hp
    obtain ⟨e, he⟩ := takeWhile1_err (h.2 t rfl)
    refine ⟨e, ?_⟩
    show (takeWhile1 t Spec.wsp).bind _ = _
    rw [he]; rfl
  · exact takeWhile1_err h.1

theorem noFws_of {r : Bytes} (h : Stops Spec.wsp r) (hc : ¬ Spec.CRLF <+: r) : NoFws r :=
  ⟨h, fun t e => (hc ⟨t, e.symm⟩).elim⟩

/-- Folding white space that is not at the end of a line. -/
theorem fws_append {w v r : Bytes} (h : Spec.Fws w v) (hr : Stops Spec.wsp r)
    (hc : ¬ Spec.CRLF <+: r) : fws (w ++ r) = .ok (r, v) := by
  rcases h with ⟨_, _, a, rfl, ⟨rfl, h₁⟩, _, _, ⟨⟩, rfl, rfl, _, _, b, rfl, ⟨rfl, hne, h₂⟩, rfl, rfl⟩ |
    ⟨rfl, hne, h⟩
  · have e : a ++ (Spec.CRLF ++ (b ++ [])) ++ r = a ++ (Spec.CRLF ++ (b ++ r)) := by simp
    obtain ⟨h3, h4⟩ := takeWhile_run (r := Spec.CRLF ++ (b ++ r)) h₁ (stops_cons.mpr (by decide))
    rw [e, fws_eq, h3, h4, if_pos (List.prefix_append _ _)]
    show (takeWhile1 (b ++ r) Spec.wsp).bind _ = _
    rw [takeWhile1_ok hne h₂ hr]
    rfl
  · obtain ⟨h1, h2⟩ := takeWhile_run (r := r) h hr
    rw [fws_eq, h1, h2, if_neg hc]
    exact takeWhile1_ok hne h hr

/-- White space directly before the end of the line is not folding white space for the code. -/
theorem fws_err_at_end {w t : Bytes} (hw : ∀ x ∈ w, Spec.wsp x = true) (ht : Stops Spec.wsp t) :
    ∃ e, fws (w ++ Spec.CRLF ++ t) = .err e := by
  obtain ⟨h1, h2⟩ := takeWhile_run (r := Spec.CRLF ++ t) hw (stops_cons.mpr (by decide))
  rw [List.append_assoc, fws_eq, h1, h2, if_pos (List.prefix_append _ _)]
  obtain ⟨e, he⟩ := takeWhile1_err ht
  refine ⟨e, ?_⟩
  show (takeWhile1 t Spec.wsp).bind _ = _
  rw [he]; rfl

/-! ### Comments -/

theorem comment_zero {r : Bytes} : comment 0 (40 :: r) = .abort .stackOverflow := by
  unfold comment
  have := tag_append (b! "(") r "TAG ERROR: A comment must start with a `(`."
  rw [show (40 :: r : Bytes) = b! "(" ++ r from rfl, this]; rfl

theorem noFws_cons {b : UInt8} {t : Bytes} (h : Spec.wsp b = false) (h' : b ≠ 13) :
    NoFws (b :: t) :=
  noFws_of (stops_cons.mpr h) fun hp => by
    rw [List.cons_prefix_cons] at hp
    exact h' hp.1.symm

theorem optional_err {p : Bytes → Res α} {i : Bytes} (h : ∃ e, p i = .err e) :
    optional i p = .ok (i, none) := by
  obtain ⟨e, h⟩ := h
  simp [optional, h]

theorem optional_ok {p : Bytes → Res α} {i r : Bytes} {v : α} (h : p i = .ok (r, v)) :
    optional i p = .ok (r, some v) := by
  simp [optional, h]

theorem optional_abort {p : Bytes → Res α} {i : Bytes} {k : Abort} (h : p i = .abort k) :
    optional i p = .abort k := by
  simp [optional, h]

theorem manyLoop_err {p : Bytes → Res α} {i : Bytes} {n : Nat} (h : ∃ e, p i = .err e) :
    manyLoop p (n + 1) i = .ok (i, []) := by
  obtain ⟨e, h⟩ := h
  unfold manyLoop
  rw [h]

theorem many_err {p : Bytes → Res α} {i : Bytes} (h : ∃ e, p i = .err e) :
    many i p = .ok (i, []) := manyLoop_err h

theorem many_abort {p : Bytes → Res α} {i : Bytes} {k : Abort} (h : p i = .abort k) :
    many i p = .abort k := by
  unfold many manyLoop
  rw [h]

/-- More opening parentheses than the stack has room for. -/
theorem comment_overflow : ∀ n (r : Bytes),
    comment n (List.replicate (n + 1) 40 ++ r) = .abort .stackOverflow
  | 0, r => comment_zero
  | n + 1, r => by
    have ih := comment_overflow n r
    obtain ⟨t, ht⟩ : ∃ t, List.replicate (n + 1) (40 : UInt8) ++ r = 40 :: t :=
      ⟨List.replicate n 40 ++ r, by simp [List.replicate_succ]⟩
    rw [List.replicate_succ, List.cons_append, ht]
    rw [ht] at ih
    have hc : ccontent (comment n) (40 :: t) = .abort .stackOverflow := by
      unfold ccontent
      obtain ⟨e, he⟩ := takeWhile1_err (p := isCtext) (r := 40 :: t) (stops_cons.mpr (by decide))
      have hq : quotedPair (40 :: t) = .err (.explicit "TAG ERROR: A quoted pair must start with a `\\`.") := by
        unfold quotedPair
        rw [tag_cons_err (by decide)]; rfl
      simp only [matchParsers, he, err_bind, hq, ih]
    unfold comment
    rw [show (40 :: 40 :: t : Bytes) = b! "(" ++ (40 :: t) from rfl, tag_append]
    simp only [ok_bind]
    have hl : ignoreMany (40 :: t) (fun input =>
        pair input (fun i => optional i fws) (ccontent (comment n))) = .abort .stackOverflow := by
      have ho : optional (40 :: t) fws = .ok (40 :: t, none) :=
        optional_err (noFws_cons (by decide) (by decide)).err
      unfold ignoreMany ignoreManyLoop pair
      simp only [ho, ok_bind, hc, abort_bind]
    rw [hl]; rfl

theorem cfws_overflow {i : Bytes} (h : comment c.stack i = .abort .stackOverflow)
    (hf : NoFws i) : cfws c i = .abort .stackOverflow := by
  unfold cfws realCfws
  simp only [matchParsers, optional_err hf.err, ok_bind, h]

theorem skipCfws_overflow {i : Bytes} (h : comment c.stack i = .abort .stackOverflow)
    (hf : NoFws i) : skipCfws c i = .abort .stackOverflow := by
  unfold skipCfws
  rw [cfws_overflow h hf]

end EmailParser
