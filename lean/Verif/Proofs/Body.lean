import Verif.Model.Message
import Verif.Spec.Fields
import Verif.Proofs.Sound.Fields
/-
The body of a message (src/parsing/message.rs).
-/
namespace EmailParser

/-- The line at the beginning of the input, as cut by the code. -/
def lineOf (i : Bytes) : Bytes := (i.take 998).takeWhile Spec.text

theorem lineOf_append (i : Bytes) : i = lineOf i ++ i.drop (lineOf i).length := by
  have h : lineOf i <+: i := (List.takeWhile_prefix _).trans (List.take_prefix _ _)
  exact (List.prefix_iff_eq_append.mp h).symm

theorem lineOf_from (i : Bytes) :
    getUncheckedFrom i (lineOf i).length = .ok (i.drop (lineOf i).length) := by
  have h := getUncheckedFrom_append (lineOf i) (i.drop (lineOf i).length)
  rwa [← lineOf_append] at h

theorem lineOf_to (i : Bytes) : getUncheckedTo i (lineOf i).length = .ok (lineOf i) := by
  have h := getUncheckedTo_append (lineOf i) (i.drop (lineOf i).length)
  rwa [← lineOf_append] at h

theorem take_min (i : Bytes) (n : Nat) : i.take (min i.length n) = i.take n := by
  rw [List.take_eq_take_iff]; omega

theorem line_eq (i : Bytes) : line i = .ok (i.drop (lineOf i).length, lineOf i) := by
  unfold line
  simp only [isText_eq, take_min]
  cases h : firstFailing Spec.text 0 (i.take 998) with
  | some j =>
    obtain ⟨h1, -⟩ := firstFailing_some h
    have h1 : j = (lineOf i).length := by rw [h1, Nat.zero_add]; rfl
    subst h1
    dsimp only
    rw [lineOf_from, lineOf_to]; rfl
  | none =>
    obtain ⟨h1, -⟩ := firstFailing_none h
    have h1 : lineOf i = i.take 998 := h1
    have hl : (lineOf i).length = min i.length 998 := by simp [h1, Nat.min_comm]
    dsimp only
    rw [← hl]
    rw [lineOf_from, lineOf_to]; rfl

theorem checkLine_eq (i : Bytes) : checkLine i = .ok (i.drop (lineOf i).length, ()) := by
  have h := line_eq i
  unfold line at h
  unfold checkLine
  dsimp only at h ⊢
  split at h
  · obtain ⟨r, h1, h⟩ := bind_eq_ok.mp h
    obtain ⟨v, -, h⟩ := bind_eq_ok.mp h
    cases h
    rw [h1]; rfl
  · obtain ⟨r, h1, h⟩ := bind_eq_ok.mp h
    obtain ⟨v, -, h⟩ := bind_eq_ok.mp h
    cases h
    rw [h1]; rfl

theorem lineOf_bodyLine (i : Bytes) : Spec.BodyLine (lineOf i) := by
  refine ⟨?_, fun c h => mem_takeWhile h⟩
  have := (List.takeWhile_prefix Spec.text (l := i.take 998)).length_le
  simp only [List.length_take] at this
  unfold lineOf; omega

theorem takeWhile_all {p : UInt8 → Bool} {l : Bytes} (h : ∀ c ∈ l, p c = true) (r : Bytes) :
    (l ++ r).takeWhile p = l ++ r.takeWhile p := by
  induction l with
  | nil => rfl
  | cons a l ih =>
    have ha : p a = true := h a (by simp)
    simp only [List.cons_append, List.takeWhile_cons, ha, if_true]
    rw [ih fun c hc => h c (by simp [hc])]

/-- A body line followed by nothing or CRLF is cut by the code. -/
theorem lineOf_eq {l : Bytes} (h : Spec.BodyLine l) (r : Bytes) (hr : r = [] ∨ ∃ r', r = 13 :: r') :
    lineOf (l ++ r) = l := by
  unfold lineOf
  rw [List.take_append, List.take_of_length_le h.1, takeWhile_all h.2]
  rcases hr with rfl | ⟨r', rfl⟩
  · simp
  · cases 998 - l.length with
    | zero => simp
    | succ n =>
      rw [List.take_succ_cons, List.takeWhile_cons_of_neg (by decide), List.append_nil]

/-- The error of the body loops. -/
def bodyError : Error := .explicit "TAG ERROR: In a body, a line must end with a CRLF sequence."

theorem bodyLinesLoop_spec : ∀ fuel (i : Bytes), i.length < fuel →
    match bodyLinesLoop fuel i with
    | .ok ls => ls ≠ [] ∧ i = Spec.joinLines ls ∧ ∀ l ∈ ls, Spec.BodyLine l
    | .err e => e = bodyError ∧ ¬ Spec.Body i
    | .abort _ => False
  | 0, _, h => by omega
  | fuel + 1, i, h => by
    unfold bodyLinesLoop
    rw [line_eq]
    show match (match tag (i.drop (lineOf i).length) (b! "\r\n") _ with
      | .ok (newInput, ()) => (bodyLinesLoop fuel newInput).bind fun lines => .ok (lineOf i :: lines)
      | .err e => if (i.drop (lineOf i).length).isEmpty then .ok [lineOf i] else .err e
      | .abort k => .abort k : Outcome (List Bytes)) with
      | .ok ls => ls ≠ [] ∧ i = Spec.joinLines ls ∧ ∀ l ∈ ls, Spec.BodyLine l
      | .err e => e = bodyError ∧ ¬ Spec.Body i
      | .abort _ => False
    have happ := lineOf_append i
    rcases tag_cases (i.drop (lineOf i).length) (b! "\r\n")
        "TAG ERROR: In a body, a line must end with a CRLF sequence." with ⟨r, hr, ht⟩ | ⟨hn, ht⟩
    · rw [ht]
      dsimp only
      rw [hr] at happ
      have ih := bodyLinesLoop_spec fuel r (by
        have := congrArg List.length happ
        simp at this; omega)
      cases hx : bodyLinesLoop fuel r with
      | abort k => rw [hx] at ih; exact ih
      | err e =>
        rw [hx] at ih
        refine ⟨ih.1, ?_⟩
        rintro ⟨ls, hne, hi, hl⟩
        refine ih.2 ?_
        match ls, hne with
        | [l], _ =>
          have h1 : lineOf i = l := by
            rw [hi]
            have := lineOf_eq (hl l (by simp)) [] (.inl rfl)
            simpa [Spec.joinLines] using this
          rw [hi, ← hi, h1] at happ
          simp only [Spec.joinLines] at hi
          rw [hi] at happ
          have := congrArg List.length happ
          simp at this
        | l :: l' :: ls, _ =>
          have hi' : i = l ++ (b! "\r\n" ++ Spec.joinLines (l' :: ls)) := by
            rw [hi]; simp [Spec.joinLines, Spec.CRLF]
          have h1 : lineOf i = l := by
            rw [hi']
            exact lineOf_eq (hl l (by simp)) _ (.inr ⟨_, rfl⟩)
          rw [h1, hi'] at happ
          have := List.append_cancel_left (List.append_cancel_left happ)
          exact ⟨l' :: ls, by simp, this.symm, fun x hx => hl x (by simp_all)⟩
      | ok ls =>
        rw [hx] at ih
        obtain ⟨hne, hr', hl⟩ := ih
        refine ⟨by simp, ?_, ?_⟩
        · match ls, hne with
          | l' :: ls, _ =>
            conv => lhs; rw [happ, hr']
            simp [Spec.joinLines, Spec.CRLF]
        · intro l hm
          rcases List.mem_cons.mp hm with rfl | hm
          · exact lineOf_bodyLine i
          · exact hl l hm
    · rw [ht]
      dsimp only
      by_cases hemp : (i.drop (lineOf i).length) = []
      · rw [hemp] at happ ⊢
        rw [if_pos (by rfl)]
        refine ⟨by simp, ?_, ?_⟩
        · conv => lhs; rw [happ]
          simp [Spec.joinLines]
        · intro l hm
          rw [List.mem_singleton.mp hm]
          exact lineOf_bodyLine i
      · rw [if_neg (by simpa using hemp)]
        refine ⟨rfl, ?_⟩
        rintro ⟨ls, hne, hi, hl⟩
        match ls, hne with
        | [l], _ =>
          have hi' : i = l := hi
          have h1 : lineOf i = l := by
            rw [hi']
            have := lineOf_eq (hl l (by simp)) [] (.inl rfl)
            simpa using this
          rw [h1, hi'] at hemp
          simp at hemp
        | l :: l' :: ls, _ =>
          have hi' : i = l ++ (b! "\r\n" ++ Spec.joinLines (l' :: ls)) := by
            rw [hi]; simp [Spec.joinLines, Spec.CRLF]
          have h1 : lineOf i = l := by
            rw [hi']
            exact lineOf_eq (hl l (by simp)) _ (.inr ⟨_, rfl⟩)
          rw [h1, hi'] at hn
          rw [List.drop_left] at hn
          exact hn (List.prefix_append _ _)

/-- The two loops do the same. -/
theorem bodyLoop_eq : ∀ fuel i, bodyLoop fuel i = (bodyLinesLoop fuel i).bind fun _ => .ok ()
  | 0, _ => rfl
  | fuel + 1, i => by
    unfold bodyLoop bodyLinesLoop
    rw [line_eq, checkLine_eq]
    show (match tag (i.drop (lineOf i).length) (b! "\r\n") _ with
      | .ok (newInput, ()) => bodyLoop fuel newInput
      | .err e => if (i.drop (lineOf i).length).isEmpty then .ok () else .err e
      | .abort k => .abort k : Outcome Unit) = (match tag (i.drop (lineOf i).length) (b! "\r\n") _ with
      | .ok (newInput, ()) => (bodyLinesLoop fuel newInput).bind fun lines => .ok (lineOf i :: lines)
      | .err e => if (i.drop (lineOf i).length).isEmpty then .ok [lineOf i] else .err e
      | .abort k => .abort k : Outcome (List Bytes)).bind fun _ => .ok ()
    cases tag (i.drop (lineOf i).length) (b! "\r\n")
        "TAG ERROR: In a body, a line must end with a CRLF sequence." with
    | ok r =>
      dsimp only
      rw [bodyLoop_eq fuel]
      cases bodyLinesLoop fuel r.1 <;> rfl
    | err e => dsimp only; split <;> rfl
    | abort k => rfl

end EmailParser
