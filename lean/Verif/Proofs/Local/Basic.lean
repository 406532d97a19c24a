import Verif.Proofs.Complete.Lexical
import Verif.Proofs.Sound.Address
/-
Locality: what a parser does with the text before a line end does not depend on what comes after that line
end, as long as it does not begin with white space.  Framework and lexical parsers.
-/
namespace EmailParser
open Spec (Gram)

variable {α β γ : Type} {t t' : Bytes} {c : Cfg}

/-- The outcomes `x` and `y` of a parser on `w`, followed by a line end and `t`, respectively `t'`: both
report the same value and stop at the same place in `w`, or both fail, or both abort in the same way. -/
inductive Same (t t' : Bytes) {α : Type} (w : Bytes) : Res α → Res α → Prop
  | ok (u s : Bytes) (v : α) : w = u ++ s → Same t t' w (.ok (s ++ 13 :: 10 :: t, v)) (.ok (s ++ 13 :: 10 :: t', v))
  | err (e e' : Error) : Same t t' w (.err e) (.err e')
  | abort (k : Abort) : Same t t' w (.abort k) (.abort k)

/-- Neither of the two continuations begins with white space. -/
def Tails (t t' : Bytes) : Prop := Stops Spec.wsp t ∧ Stops Spec.wsp t'

/-- What the parser does does not depend on what follows the line end. -/
def Local (p : Bytes → Res α) : Prop :=
  ∀ t t' w, Tails t t' → Same t t' w (p (w ++ 13 :: 10 :: t)) (p (w ++ 13 :: 10 :: t'))

theorem Same.mono {u w : Bytes} {x y : Res α} (h : Same t t' w x y) : Same t t' (u ++ w) x y := by
  cases h with
  | ok u' s v e => exact .ok (u ++ u') s v (by simp [e])
  | err e e' => exact .err e e'
  | abort k => exact .abort k

theorem Same.same {w : Bytes} {v : α} :
    Same t t' w (.ok (w ++ 13 :: 10 :: t, v)) (.ok (w ++ 13 :: 10 :: t', v)) := .ok [] w v rfl

theorem Same.bind {w : Bytes} {x y : Res α} {f g : Bytes × α → Res β} (h : Same t t' w x y)
    (hf : ∀ s v, Same t t' s (f (s ++ 13 :: 10 :: t, v)) (g (s ++ 13 :: 10 :: t', v))) :
    Same t t' w (x >>= f) (y >>= g) := by
  cases h with
  | ok u s v e => subst e; exact (hf s v).mono
  | err e e' => exact .err e e'
  | abort k => exact .abort k

/-- The same computation on both sides, which does not read the input. -/
theorem Same.bindPure {w : Bytes} {x : Outcome α} {f g : α → Res β} (hf : ∀ v, Same t t' w (f v) (g v)) :
    Same t t' w (x >>= f) (x >>= g) := by
  cases x with
  | ok v => exact hf v
  | err e => exact .err e e
  | abort k => exact .abort k

theorem Same.mapErr {w : Bytes} {x y : Res α} {e : Error} (h : Same t t' w x y) :
    Same t t' w (x.mapErr e) (y.mapErr e) := by
  cases h with
  | ok u s v e => exact .ok u s v e
  | err _ _ => exact .err e e
  | abort k => exact .abort k

/-- `match x with | .ok r => … | .err _ => … | .abort k => .abort k` -/
theorem Same.matchErr {w : Bytes} {x y : Res α} {f f' : Bytes × α → Res β} {g g' : Error → Res β}
    (h : Same t t' w x y)
    (hf : ∀ u s v, w = u ++ s → Same t t' w (f (s ++ 13 :: 10 :: t, v)) (f' (s ++ 13 :: 10 :: t', v)))
    (hg : ∀ e e', Same t t' w (g e) (g' e')) :
    Same t t' w (match (generalizing := false) x with | .ok r => f r | .err e => g e | .abort k => .abort k)
      (match (generalizing := false) y with | .ok r => f' r | .err e => g' e | .abort k => .abort k) := by
  cases h with
  | ok u s v e => exact hf u s v e
  | err e e' => exact hg e e'
  | abort k => exact .abort k

theorem Same.ite {w : Bytes} {p : Prop} [Decidable p] {x y x' y' : Res α} (h1 : p → Same t t' w x y)
    (h2 : ¬ p → Same t t' w x' y') : Same t t' w (if p then x else x') (if p then y else y') := by
  split
  · exact h1 ‹_›
  · exact h2 ‹_›

/-! ### Combinators -/

theorem split_end {n r w s : Bytes} (hn : 13 ∉ n) (h : w ++ 13 :: s = n ++ r) :
    ∃ u, w = n ++ u ∧ r = u ++ 13 :: s := by
  rcases List.append_eq_append_iff.mp h with ⟨as, e1, e2⟩ | ⟨bs, e1, e2⟩
  · cases as with
    | nil => exact ⟨[], by simpa using e1.symm, by simpa using e2.symm⟩
    | cons a as =>
      simp only [List.cons_append, List.cons.injEq] at e2
      obtain ⟨rfl, -⟩ := e2
      simp [e1] at hn
  · exact ⟨bs, e1, e2⟩

theorem prefix_end {e w s : Bytes} (he : 13 ∉ e) : e <+: w ++ 13 :: s ↔ e <+: w := by
  constructor
  · rintro ⟨r, h⟩
    obtain ⟨u, rfl, -⟩ := split_end he h.symm
    exact List.prefix_append _ _
  · exact fun h => h.trans (List.prefix_append _ _)

theorem takeWhile_end {p : UInt8 → Bool} (hp : p 13 = false) (s : Bytes) : ∀ w : Bytes,
    (w ++ 13 :: s).takeWhile p = w.takeWhile p ∧ (w ++ 13 :: s).dropWhile p = w.dropWhile p ++ 13 :: s
  | [] => by simp [hp]
  | b :: w => by
    obtain ⟨h1, h2⟩ := takeWhile_end hp s w
    by_cases hb : p b = true <;> simp [hb, h1, h2]

theorem tag_local {s : Bytes} {m : String} (hs : 13 ∉ s) : Local fun i => tag i s m := by
  intro t t' w _
  dsimp only
  by_cases h : s <+: w
  · obtain ⟨u, rfl⟩ := h
    simp only [List.append_assoc, tag_append]
    exact .ok s u () rfl
  · rw [tag_err (by rwa [prefix_end hs]), tag_err (by rwa [prefix_end hs])]
    exact .err _ _

theorem tagNoCase_local {e e2 : Bytes} {m : String} (h : e2 = e.map swapCase)
    (he : 13 ∉ e.map asciiLower) : Local fun i => tagNoCase i e e2 m := by
  intro t t' w _
  subst h
  dsimp only
  have key : ∀ s : Bytes, e.map asciiLower <+: (w ++ 13 :: s).map asciiLower ↔
      e.map asciiLower <+: w.map asciiLower := by
    intro s
    simp only [List.map_append, List.map_cons]
    exact prefix_end he
  rcases tagNoCase_cases (w ++ 13 :: 10 :: t) e m with ⟨n, r, hi, hn, h⟩ | ⟨hn, x, h⟩
  · have h13 : 13 ∉ n := by
      intro hm
      apply he
      rw [← hn]
      exact List.mem_map.mpr ⟨13, hm, by decide⟩
    obtain ⟨u, rfl, rfl⟩ := split_end h13 hi
    simp only [List.append_assoc, tagNoCase_append _ m hn]
    exact .ok n u () rfl
  · rw [h]
    rcases tagNoCase_cases (w ++ 13 :: 10 :: t') e m with ⟨n, r, hi, hn', h'⟩ | ⟨hn', x', h'⟩
    · exfalso
      apply hn
      rw [key, ← key (10 :: t'), hi]
      simp [hn']
    · rw [h']
      exact .err _ _

theorem takeWhile_local {p : UInt8 → Bool} (hp : p 13 = false) : Local fun i => takeWhile i p := by
  intro t t' w _
  simp only [takeWhile_eq, takeWhile_end hp]
  exact .ok _ _ _ List.takeWhile_append_dropWhile.symm

theorem takeWhile1_local {p : UInt8 → Bool} (hp : p 13 = false) : Local fun i => takeWhile1 i p := by
  intro t t' w _
  simp only [takeWhile1_eq, takeWhile_end hp]
  split
  · exact .err _ _
  · exact .ok _ _ _ List.takeWhile_append_dropWhile.symm

theorem fws_local : Local fws := by
  intro t t' w ht
  have hw : Spec.wsp 13 = false := by decide
  simp only [fws_eq, takeWhile_end hw]
  have hsplit := (List.takeWhile_append_dropWhile (p := Spec.wsp) (l := w)).symm
  match hd : w.dropWhile Spec.wsp with
  | [] =>
    rw [if_pos (by simp [Spec.CRLF]), if_pos (by simp [Spec.CRLF])]
    simp only [List.nil_append, List.drop_succ_cons, List.drop_zero]
    obtain ⟨e, he⟩ := takeWhile1_err ht.1
    obtain ⟨e', he'⟩ := takeWhile1_err ht.2
    rw [he, he']
    exact .err _ _
  | [b] =>
    by_cases hb : b = 13
    · subst hb
      rw [if_neg (by simp [Spec.CRLF]), if_neg (by simp [Spec.CRLF])]
      exact takeWhile1_local hw t t' w ht
    · rw [if_neg (by simp [Spec.CRLF, Ne.symm hb]), if_neg (by simp [Spec.CRLF, Ne.symm hb])]
      exact takeWhile1_local hw t t' w ht
  | b :: b' :: s =>
    by_cases hb : b = 13 ∧ b' = 10
    · obtain ⟨rfl, rfl⟩ := hb
      rw [if_pos (by simp [Spec.CRLF]), if_pos (by simp [Spec.CRLF])]
      simp only [List.cons_append, List.drop_succ_cons, List.drop_zero]
      have h := takeWhile1_local hw t t' s ht
      rw [hd] at hsplit
      generalize w.takeWhile Spec.wsp = u at hsplit ⊢
      rw [hsplit, show u ++ 13 :: 10 :: s = (u ++ [13, 10]) ++ s by simp]
      exact .mono (.bind (f := fun r => .ok (r.1, u ++ r.2)) (g := fun r => .ok (r.1, u ++ r.2)) h
        fun s v => .same)
    · rw [if_neg (by simp [Spec.CRLF]; intro h1 h2; exact hb ⟨h1.symm, h2.symm⟩),
        if_neg (by simp [Spec.CRLF]; intro h1 h2; exact hb ⟨h1.symm, h2.symm⟩)]
      exact takeWhile1_local hw t t' w ht

theorem Local.cases {p : Bytes → Res α} (hp : Local p) {w : Bytes} (ht : Tails t t') :
    (∃ u s v, w = u ++ s ∧ p (w ++ 13 :: 10 :: t) = .ok (s ++ 13 :: 10 :: t, v) ∧
      p (w ++ 13 :: 10 :: t') = .ok (s ++ 13 :: 10 :: t', v)) ∨
    (∃ e e', p (w ++ 13 :: 10 :: t) = .err e ∧ p (w ++ 13 :: 10 :: t') = .err e') ∨
    (∃ k, p (w ++ 13 :: 10 :: t) = .abort k ∧ p (w ++ 13 :: 10 :: t') = .abort k) := by
  have h := hp t t' w ht
  generalize p (w ++ 13 :: 10 :: t) = x at h
  generalize p (w ++ 13 :: 10 :: t') = y at h
  cases h with
  | ok u s v e => exact .inl ⟨u, s, v, e, rfl, rfl⟩
  | err e e' => exact .inr (.inl ⟨e, e', rfl, rfl⟩)
  | abort k => exact .inr (.inr ⟨k, rfl, rfl⟩)

theorem optional_local {p : Bytes → Res α} (hp : Local p) : Local fun i => optional i p := by
  intro t t' w ht
  dsimp only
  unfold optional
  rcases hp.cases (w := w) ht with ⟨u, s, v, e, h1, h2⟩ | ⟨e, e', h1, h2⟩ | ⟨k, h1, h2⟩ <;> rw [h1, h2]
  · exact .ok u s _ e
  · exact .same
  · exact .abort k

theorem matchParsers_local : ∀ {ps : List (Bytes → Res α)}, (∀ p ∈ ps, Local p) →
    Local fun i => matchParsers i ps
  | [], _ => fun t t' w _ => .err _ _
  | p :: ps, h => by
    intro t t' w ht
    dsimp only
    unfold matchParsers
    rcases (h p (by simp)).cases (w := w) ht with ⟨u, s, v, e, h1, h2⟩ | ⟨e, e', h1, h2⟩ | ⟨k, h1, h2⟩ <;>
      rw [h1, h2]
    · exact .ok u s _ e
    · exact matchParsers_local (ps := ps) (fun q hq => h q (by simp [hq])) t t' w ht
    · exact .abort k

/-- A parser that consumes something. -/
def Shrinks (p : Bytes → Res α) : Prop := ∀ i r v, p i = .ok (r, v) → r.length < i.length

theorem shrinks_of {A : Aborts} {G : Gram α} {p : Bytes → Res α} (hG : Progress G) (hp : Parses A G p) :
    Shrinks p := by
  intro i r v h
  have := hp i
  rw [h] at this
  obtain ⟨w, hi, hw⟩ := this
  have := List.length_pos_iff.mpr (hG _ _ hw)
  simp [hi]
  omega

theorem Same.shorter {p : Bytes → Res α} (hs : Shrinks p) {w u s : Bytes} {v : α}
    (h : p (w ++ 13 :: 10 :: t) = .ok (s ++ 13 :: 10 :: t, v)) (_ : w = u ++ s) : s.length < w.length := by
  have := hs _ _ _ h
  simp at this
  omega

theorem manyLoop_local {p : Bytes → Res α} (hp : Local p) (hs : Shrinks p) (ht : Tails t t') :
    ∀ n n' (w : Bytes), (w ++ 13 :: 10 :: t).length < n → (w ++ 13 :: 10 :: t').length < n' →
      Same t t' w (manyLoop p n (w ++ 13 :: 10 :: t)) (manyLoop p n' (w ++ 13 :: 10 :: t'))
  | 0, _, _, h, _ => by omega
  | _, 0, _, _, h => by omega
  | n + 1, n' + 1, w, hn, hn' => by
    unfold manyLoop
    rcases hp.cases (w := w) ht with ⟨u, s, v, e, h1, h2⟩ | ⟨e, e', h1, h2⟩ | ⟨k, h1, h2⟩ <;> rw [h1, h2]
    · have := hs _ _ _ h1
      have := hs _ _ _ h2
      subst e
      exact .mono (.bind (manyLoop_local hp hs ht n n' s (by omega) (by omega)) fun s v => .same)
    · exact .same
    · exact .abort k

theorem many_local {p : Bytes → Res α} (hp : Local p) (hs : Shrinks p) : Local fun i => many i p :=
  fun _ _ w ht => manyLoop_local hp hs ht _ _ w (by simp) (by simp)

theorem many1_local {p : Bytes → Res α} (hp : Local p) (hs : Shrinks p) : Local fun i => many1 i p :=
  fun t t' w ht => .bind (hp t t' w ht) fun s _ =>
    .bind (manyLoop_local hp hs ht _ _ s (by simp) (by simp)) fun _ _ => .same

theorem ignoreManyLoop_local {p : Bytes → Res α} (hp : Local p) (hs : Shrinks p) (ht : Tails t t') :
    ∀ n n' (w : Bytes), (w ++ 13 :: 10 :: t).length < n → (w ++ 13 :: 10 :: t').length < n' →
      Same t t' w (ignoreManyLoop p n (w ++ 13 :: 10 :: t)) (ignoreManyLoop p n' (w ++ 13 :: 10 :: t'))
  | 0, _, _, h, _ => by omega
  | _, 0, _, _, h => by omega
  | n + 1, n' + 1, w, hn, hn' => by
    unfold ignoreManyLoop
    rcases hp.cases (w := w) ht with ⟨u, s, v, e, h1, h2⟩ | ⟨e, e', h1, h2⟩ | ⟨k, h1, h2⟩ <;> rw [h1, h2]
    · have := hs _ _ _ h1
      have := hs _ _ _ h2
      subst e
      exact .mono (ignoreManyLoop_local hp hs ht n n' s (by omega) (by omega))
    · exact .same
    · exact .abort k

theorem ignoreMany_local {p : Bytes → Res α} (hp : Local p) (hs : Shrinks p) : Local fun i => ignoreMany i p :=
  fun _ _ w ht => ignoreManyLoop_local hp hs ht _ _ w (by simp) (by simp)

theorem collectManyLoop_local {p : Bytes → Res Bytes} (hp : Local p) (hs : Shrinks p) (ht : Tails t t') :
    ∀ n n' (w : Bytes), (w ++ 13 :: 10 :: t).length < n → (w ++ 13 :: 10 :: t').length < n' →
      Same t t' w (collectManyLoop p n (w ++ 13 :: 10 :: t)) (collectManyLoop p n' (w ++ 13 :: 10 :: t'))
  | 0, _, _, h, _ => by omega
  | _, 0, _, _, h => by omega
  | n + 1, n' + 1, w, hn, hn' => by
    unfold collectManyLoop
    rcases hp.cases (w := w) ht with ⟨u, s, v, e, h1, h2⟩ | ⟨e, e', h1, h2⟩ | ⟨k, h1, h2⟩ <;> rw [h1, h2]
    · have := hs _ _ _ h1
      have := hs _ _ _ h2
      subst e
      exact .mono (.bind (collectManyLoop_local hp hs ht n n' s (by omega) (by omega)) fun s v => .same)
    · exact .same
    · exact .abort k

theorem collectMany_local {p : Bytes → Res Bytes} (hp : Local p) (hs : Shrinks p) :
    Local fun i => collectMany i p :=
  fun _ _ w ht => collectManyLoop_local hp hs ht _ _ w (by simp) (by simp)

theorem pair_local {p : Bytes → Res α} {q : Bytes → Res β} (hp : Local p) (hq : Local q) :
    Local fun i => pair i p q :=
  fun t t' w ht => .bind (hp t t' w ht) fun s _ => .bind (hq t t' s ht) fun _ _ => .same

theorem triplet_local {p : Bytes → Res α} {q : Bytes → Res β} {o : Bytes → Res γ} (hp : Local p) (hq : Local q)
    (ho : Local o) : Local fun i => triplet i p q o :=
  fun t t' w ht => .bind (hp t t' w ht) fun s _ => .bind (hq t t' s ht) fun s _ =>
    .bind (ho t t' s ht) fun _ _ => .same

theorem collectPair_local {p q : Bytes → Res Bytes} (hp : Local p) (hq : Local q) :
    Local fun i => collectPair i p q :=
  fun t t' w ht => .bind (hp t t' w ht) fun s _ => .bind (hq t t' s ht) fun _ _ => .same

theorem mapValue_local {f : α → β} {p : Bytes → Res α} (hp : Local p) :
    Local fun i => (do let (i, v) ← p i; .ok (i, f v) : Res β) :=
  fun t t' w ht => .bind (hp t t' w ht) fun _ _ => .same

/-- A test for the next bytes. -/
theorem startsWith_end {e w s : Bytes} (he : 13 ∉ e) : startsWith (w ++ 13 :: s) e = startsWith w e := by
  rw [Bool.eq_iff_iff, startsWith_iff, startsWith_iff]
  exact prefix_end he

theorem prefixed_local {p : Bytes → Res α} {e : Bytes} (he : 13 ∉ e) (hp : Local p) :
    Local fun i => prefixed i p e := by
  intro t t' w ht
  simp only [prefixed, startsWith_end he]
  split
  · rename_i h
    obtain ⟨u, rfl⟩ := startsWith_iff.mp h
    simp only [List.append_assoc, getUncheckedFrom_append, ok_bind]
    exact .mono (hp t t' u ht)
  · exact .err _ _

end EmailParser
