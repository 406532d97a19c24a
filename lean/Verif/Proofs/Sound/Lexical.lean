import Verif.Proofs.Gram
import Verif.Spec.Grammar
import Verif.Proofs.Base64
import Verif.Proofs.QuotedPrintable
/-
Soundness of the lexical parsers: white space, comments, quoted strings, atoms, phrases,
unstructured text, encoded words.
-/
namespace EmailParser
open Spec (Gram)

variable {A : Aborts} {α β : Type}

/-! ### Character classes -/

theorem isWsp_eq : isWsp = Spec.wsp := funext (by decide +kernel)
theorem isCtext_eq : isCtext = Spec.ctext := funext (by decide +kernel)
theorem isVchar_eq : isVchar = Spec.vchar := funext (by decide +kernel)
theorem isDigit_eq : isDigit = Spec.digit := funext (by decide +kernel)
theorem isDtext_eq : isDtext = Spec.dtext := funext (by decide +kernel)
theorem isAtext_eq : isAtext = Spec.atext := funext (by decide +kernel)
theorem isQtext_eq : isQtext = Spec.qtext := funext (by decide +kernel)
theorem isFtext_eq : isFtext = Spec.ftext := funext (by decide +kernel)
theorem isText_eq : isText = Spec.text := funext (by decide +kernel)
theorem isTokenChar_eq : isTokenChar = Spec.tokenChar := funext (by decide +kernel)

/-! ### Names in any case -/

/-- The other case of a letter. -/
def swapCase (c : UInt8) : UInt8 :=
  if c ≥ 65 && c ≤ 90 then c + 32 else if c ≥ 97 && c ≤ 122 then c - 32 else c

theorem swapCase_iff (c e : UInt8) : (c = e ∨ c = swapCase e) ↔ asciiLower c = asciiLower e := by
  have h1 : ∀ e : UInt8, asciiLower (swapCase e) = asciiLower e := by decide +kernel
  have h2 : ∀ c : UInt8, c = asciiLower c ∨ c = swapCase (asciiLower c) := by decide +kernel
  have h3 : ∀ e : UInt8, asciiLower e = e ∨ asciiLower e = swapCase e := by decide +kernel
  have h4 : ∀ e : UInt8, swapCase (asciiLower e) = e ∨ swapCase (asciiLower e) = swapCase e := by
    decide +kernel
  constructor
  · rintro (rfl | rfl)
    · rfl
    · exact h1 e
  · intro h
    have h2 := h2 c
    rw [h] at h2
    rcases h2 with h2 | h2
    · rw [h2]; exact h3 e
    · rw [h2]; exact h4 e

theorem oppositeCase_swap (e : Bytes) : oppositeCase e (e.map swapCase) = true := by
  have h : ∀ a : UInt8, (!((a ≥ 97 && a ≤ 122 && asciiUpper a != swapCase a) ||
      (a ≥ 65 && a ≤ 90 && asciiLower a != swapCase a))) = true := by decide +kernel
  have : ∀ l : Bytes, ((l.zip (l.map swapCase)).all fun (a, b) =>
      !((a ≥ 97 && a ≤ 122 && asciiUpper a != b) || (a ≥ 65 && a ≤ 90 && asciiLower a != b)))
      = true := by
    intro l
    induction l with
    | nil => rfl
    | cons a l ih =>
      simp only [List.map_cons, List.zip_cons_cons, List.all_cons, ih, Bool.and_true]
      exact h a
  unfold oppositeCase
  rw [this]
  simp

theorem tagNoCaseLoop_eq (i e : Bytes) (m : String) : ∀ n k, k + n = e.length →
    e.length ≤ i.length →
    tagNoCaseLoop i e (e.map swapCase) m k n =
      if ((i.drop k).take n).map asciiLower = (e.drop k).map asciiLower then .ok ()
      else .err (.explicit m)
  | 0, k, hk, hl => by
    simp [tagNoCaseLoop, show e.length ≤ k by omega]
  | n + 1, k, hk, hl => by
    have hk1 : k < i.length := by omega
    have hk2 : k < e.length := by omega
    have hk3 : k < (e.map swapCase).length := by simpa using hk2
    have ih := tagNoCaseLoop_eq i e m n (k + 1) (by omega) hl
    unfold tagNoCaseLoop
    simp only [getUnchecked, List.getElem?_eq_getElem hk1, List.getElem?_eq_getElem hk2,
      List.getElem?_eq_getElem hk3, ok_bind, ih]
    rw [List.drop_eq_getElem_cons hk1, List.drop_eq_getElem_cons hk2]
    simp only [List.take_succ_cons, List.map_cons, List.cons.injEq, List.getElem_map]
    simp only [← swapCase_iff]
    by_cases h1 : i[k] = e[k] <;> by_cases h2 : i[k] = swapCase e[k] <;> simp [h1, h2]

theorem tagNoCase_eq (i e : Bytes) (m : String) :
    tagNoCase i e (e.map swapCase) m =
      if i.length < e.length then .err (.unknown "Tag error, input is smaller than expected string")
      else if (i.take e.length).map asciiLower = e.map asciiLower then .ok (i.drop e.length, ())
      else .err (.explicit m) := by
  unfold tagNoCase
  rw [if_pos (oppositeCase_swap e)]
  split
  · rfl
  · rename_i h
    rw [tagNoCaseLoop_eq i e m e.length 0 (by omega) (by omega)]
    simp only [List.drop_zero]
    split
    · simp only [ok_bind, getUncheckedFrom]
      rw [if_pos (by omega)]
      rfl
    · rfl

/-- `tag_no_case` accepts a text equal to the expected one up to case. -/
theorem tagNoCase_append {n e : Bytes} (r : Bytes) (m : String)
    (h : n.map asciiLower = e.map asciiLower) :
    tagNoCase (n ++ r) e (e.map swapCase) m = .ok (r, ()) := by
  have hl : n.length = e.length := by simpa using congrArg List.length h
  rw [tagNoCase_eq, if_neg (by simp [hl]), ← hl]
  simp [h]

theorem tagNoCase_cases (i e : Bytes) (m : String) :
    (∃ n r, i = n ++ r ∧ n.map asciiLower = e.map asciiLower ∧
      tagNoCase i e (e.map swapCase) m = .ok (r, ())) ∨
    (¬ (e.map asciiLower <+: i.map asciiLower) ∧
      ∃ x, tagNoCase i e (e.map swapCase) m = .err x) := by
  by_cases h : e.map asciiLower <+: i.map asciiLower
  · left
    have hl : e.length ≤ i.length := by simpa using h.length_le
    refine ⟨i.take e.length, i.drop e.length, by simp, ?_, ?_⟩
    · have := List.prefix_iff_eq_take.mp h
      simpa [List.map_take] using this.symm
    · have := List.prefix_iff_eq_take.mp h
      rw [tagNoCase_eq, if_neg (by omega), if_pos]
      simpa [List.map_take] using this.symm
  · right
    refine ⟨h, ?_⟩
    rw [tagNoCase_eq]
    split
    · exact ⟨_, rfl⟩
    · rw [if_neg]
      · exact ⟨_, rfl⟩
      · intro h'
        refine h ?_
        rw [← h', List.map_take]
        exact List.take_prefix _ _

theorem tagNoCase_parses {e e2 : Bytes} (m : String) (h : e2 = e.map swapCase) :
    Parses A (Gram.litNoCase e) fun i => tagNoCase i e e2 m := by
  subst h
  intro i
  dsimp only
  rcases tagNoCase_cases i e m with ⟨n, r, rfl, hn, h⟩ | ⟨_, x, h⟩ <;> rw [h]
  · exact .ok n rfl hn
  · exact .err

/-! ### Progress -/

theorem progress_bind_left {G : Gram α} {F : α → Gram β} (h : Progress G) : Progress (G >>= F) := by
  rintro w v ⟨w₁, w₂, a, rfl, h₁, -⟩
  simp [h _ _ h₁]

theorem progress_bind_right {G : Gram α} {F : α → Gram β} (h : ∀ a, Progress (F a)) :
    Progress (G >>= F) := by
  rintro w v ⟨w₁, w₂, a, rfl, -, h₂⟩
  simp [h a _ _ h₂]

theorem progress_chars1 {p} : Progress (Gram.chars1 p) := fun _ _ h => h.2.1

theorem progress_lit {s : Bytes} (h : s ≠ []) : Progress (Gram.lit s) := by
  rintro w v rfl; exact h

theorem progress_litNoCase {s : Bytes} (h : s ≠ []) : Progress (Gram.litNoCase s) := by
  intro w v hw hn
  subst hn
  exact h (by simpa using (show [] = s.map asciiLower from hw).symm)

theorem progress_or {G H : Gram α} (hG : Progress G) (hH : Progress H) : Progress (G.or H) := by
  rintro w v (h | h)
  · exact hG _ _ h
  · exact hH _ _ h

theorem progress_skip {G : Gram α} (h : Progress G) : Progress G.skip := by
  rintro w v ⟨v, hv⟩; exact h _ _ hv

theorem progress_map {G : Gram α} {f : α → β} (h : Progress G) : Progress (G.map f) := by
  rintro w v ⟨v, -, hv⟩; exact h _ _ hv

theorem progress_plus {G : Gram α} (h : Progress G) : Progress G.plus :=
  progress_bind_left h

theorem progress_filter {G : Gram α} {p} (h : Progress G) : Progress (G.filter p) :=
  fun _ _ hw => h _ _ hw.1

/-! ### Folding white space -/

theorem fws_parses : Parses A Spec.Fws fws := by
  intro i
  unfold fws
  have h1 : PSat A (Gram.opt _) i _ := optional_parses
    (pair_parses (A := A) (takeWhile_parses isWsp)
      (tag_parses (b! "\r\n") "TAG ERROR: A folding whitespace must end with a `\\r\\n` sequence.")) i
  refine (PSat.bind h1 (F := fun before => do
    let after ← Gram.chars1 isWsp
    match before with
    | some (b, _) => pure (b ++ after)
    | none => pure after) fun r v w _ _ => ?_).imp ?_
  · refine .bind (takeWhile1_parses isWsp r) fun r v' w _ _ => ?_
    cases v with
    | none => exact .pure
    | some x => exact .pure
  · rintro w v ⟨w₁, w₂, a, rfl, h, h'⟩
    rw [isWsp_eq] at h h'
    rcases h with ⟨rfl, rfl⟩ | ⟨⟨b, u⟩, rfl, h⟩
    · obtain ⟨w3, w4, a, rfl, h3, rfl, rfl⟩ := h'
      exact .inr (by simpa using h3)
    · obtain ⟨w3, w4, a, rfl, h3, rfl, rfl⟩ := h'
      obtain ⟨w5, w6, b', rfl, h5, w7, w8, _, rfl, hw7, rfl, hb⟩ := h
      left
      refine ⟨w5, Spec.CRLF ++ w3, b', ?_, h5, Spec.CRLF, w3, (), rfl, rfl, ?_⟩
      · rw [show w7 = Spec.CRLF from hw7]; simp
      · simp only [Prod.mk.injEq] at hb
        exact ⟨w3, [], a, by simp, h3, rfl, by simp [hb.1]⟩

theorem fws_progress : Progress Spec.Fws :=
  progress_or
    (progress_bind_right fun _ => progress_bind_left (progress_lit (by decide)))
    progress_chars1

theorem opt_iff_optFws {w v} : Spec.OptFws w v ↔ ∃ o, Gram.opt Spec.Fws w o ∧ v = o.getD [] := by
  constructor
  · rintro ⟨o, rfl, h⟩; exact ⟨o, h, rfl⟩
  · rintro ⟨o, h, rfl⟩; exact ⟨o, rfl, h⟩

theorem optFws_psat (i : Bytes) : PSat A (Gram.opt Spec.Fws) i (optional i fws) :=
  optional_psat (fws_parses i)

/-- A sequence that starts with `[FWS]`, whatever the parser does with its value. -/
theorem optFws_bind {G : Bytes → Gram β} {w v} (h : (Gram.opt Spec.Fws >>= fun o => G (o.getD [])) w v) :
    (Spec.OptFws >>= G) w v := by
  obtain ⟨w₁, w₂, o, rfl, h₁, h₂⟩ := h
  exact ⟨w₁, w₂, _, rfl, ⟨o, rfl, h₁⟩, h₂⟩

theorem fwsOrEmpty_parses : Parses A Spec.OptFws fwsOrEmpty := by
  intro i
  unfold fwsOrEmpty
  have h := fws_parses (A := A) i
  cases hx : fws i with
  | ok r =>
    rw [hx] at h
    obtain ⟨w, hi, hw⟩ := h
    exact ⟨w, hi, some r.2, rfl, .inr ⟨_, rfl, hw⟩⟩
  | err e => exact ⟨[], rfl, none, rfl, .inl ⟨rfl, rfl⟩⟩
  | abort k => rw [hx] at h; exact h

/-! ### Quoted pairs and comments -/

theorem quotedPair_parses : Parses A Spec.QuotedPair quotedPair := by
  intro i
  unfold quotedPair
  refine .bind (tag_parses _ _ i) fun r v w _ _ => ?_
  cases r with
  | nil => exact .err
  | cons c r =>
    dsimp only
    split
    · rename_i h
      have a := getUncheckedFrom_append [c] r
      have b := getUncheckedTo_append [c] r
      simp only [List.cons_append, List.nil_append, List.length_cons, List.length_nil, Nat.zero_add]
        at a b
      rw [a, b]
      refine PSat.ok [c] rfl ⟨[c], [], c, rfl, ⟨rfl, ?_⟩, rfl, rfl⟩
      rwa [← isVchar_eq, ← isWsp_eq]
    · exact .err

theorem quotedPair_progress : Progress Spec.QuotedPair :=
  progress_bind_left (progress_lit (by decide))

/-- The stack overflows only if there are more than `n` opening parentheses. -/
def stackAborts (n : Nat) : Aborts where
  P i k := k = .stackOverflow ∧ n < i.count 40
  mono u v k h := ⟨h.1, by rw [List.count_append]; omega⟩

theorem commentN_progress : ∀ n, Progress (Spec.CommentN n)
  | 0 => fun _ _ h => h.elim
  | _ + 1 => progress_bind_left (progress_lit (by decide))

theorem star_imp {G : Gram α} {H : Gram β} (f : α → β) (h : ∀ w a, G w a → H w (f a)) {w as}
    (hs : Gram.star G w as) : Gram.star H w (as.map f) := by
  induction hs with
  | nil => exact .nil
  | cons h₁ _ ih => exact .cons (h _ _ h₁) ih

/-- `G` with any value. -/
def anyVal (G : Gram α) : Gram β := fun w _ => ∃ v, G w v

theorem progress_anyVal {G : Gram α} (h : Progress G) : Progress (anyVal G : Gram β) :=
  fun _ _ ⟨_, hv⟩ => h _ _ hv

theorem ccontent_parses {K : Gram Unit} {p : Bytes → Res Bytes} (hp : Parses A (anyVal K) p) :
    Parses A (anyVal (Spec.CContent K)) (ccontent p) := by
  intro i
  unfold ccontent
  refine matchParsers_psat ?_
  intro q hq
  simp only [List.mem_cons, List.not_mem_nil, or_false] at hq
  rcases hq with rfl | rfl | rfl
  · rw [isCtext_eq]
    refine (PSat.bind (takeWhile1_parses Spec.ctext i) (F := fun v => pure v)
      fun r v w _ _ => .pure).imp ?_
    rintro w v ⟨w₁, w₂, a, rfl, h, rfl, rfl⟩
    exact ⟨(), .inl ⟨_, by simpa using h⟩⟩
  · exact (quotedPair_parses i).imp fun w v h => ⟨(), .inr (.inl ⟨_, h⟩)⟩
  · refine (hp i).imp ?_
    rintro w v ⟨⟨⟩, h⟩
    exact ⟨(), .inr (.inr h)⟩

theorem ccontent_progress {K : Gram Unit} (h : Progress K) : Progress (Spec.CContent K) :=
  progress_or (progress_skip progress_chars1) (progress_or (progress_skip quotedPair_progress) h)

theorem comment_parses :
    ∀ n, Parses (stackAborts n) (anyVal (Spec.CommentN n)) (comment n)
  | 0 => by
    intro i
    unfold comment
    rcases tag_cases i (b! "(") "TAG ERROR: A comment must start with a `(`." with
      ⟨r, rfl, h⟩ | ⟨_, h⟩ <;> rw [h]
    · exact PSat.abort ⟨rfl, by simp⟩
    · exact .err
  | n + 1 => by
    intro i
    unfold comment
    rcases tag_cases i (b! "(") "TAG ERROR: A comment must start with a `(`." with
      ⟨r, rfl, h⟩ | ⟨_, h⟩ <;> rw [h]
    · -- inside, the nested calls have room for `n` levels
      simp only [ok_bind]
      have key : PSat (stackAborts n) (do
          let _ ← Gram.skip (Gram.star (do
            let a ← Gram.opt Spec.Fws
            let b ← (anyVal (Spec.CContent (Spec.CommentN n)) : Gram Bytes)
            pure (a, b)))
          let _ ← Gram.opt Spec.Fws
          let _ ← Gram.lit (b! ")")
          pure ([] : Bytes)) r (do
            let (input, _) ← ignoreMany r fun input =>
              pair input (fun i => optional i fws) (ccontent (comment n))
            let (input, _) ← optional input fws
            let (input, ()) ← tag input (b! ")") "TAG ERROR: A comment must end with a `)`."
            .ok (input, [])) := by
        refine .bind (ignoreMany_parses
            (progress_bind_right fun _ => progress_bind_left
              (progress_anyVal (ccontent_progress (commentN_progress n))))
            (pair_parses (optional_parses fws_parses) (ccontent_parses (comment_parses n))) r)
          fun r v w _ _ => ?_
        refine .bind (optFws_psat r) fun r v w _ _ => ?_
        refine .bind (tag_parses _ "TAG ERROR: A comment must end with a `)`." r) fun r v w _ _ => ?_
        exact .pure
      refine Outcome.Sat.mono key ?_ ?_
      · rintro ⟨r', v⟩ ⟨w, rfl, w₁, w₂, _, rfl, ⟨vs, h₁⟩, w₃, w₄, o, rfl, h₃, w₅, w₆, _, rfl, h₅,
          rfl, rfl⟩
        refine ⟨b! "(" ++ (w₁ ++ (w₃ ++ w₅)), by simp, (), b! "(", _, (), rfl, rfl, w₁, _,
          _, rfl, star_imp (fun _ => ()) ?_ h₁, w₃, w₅, o, rfl, h₃, h₅⟩
        rintro w ⟨o, b⟩ ⟨w₁, w₂, o', rfl, h, w₃, w₄, b', rfl, ⟨⟨⟩, h₅⟩, rfl, _⟩
        exact ⟨w₁, w₃, o', by simp, h, h₅⟩
      · rintro k ⟨rfl, hk⟩
        exact ⟨rfl, by simp; omega⟩
    · exact .err

end EmailParser
