import Verif.Proofs.Timed.Message
/-
Every byte that a parser consumes is counted as a step at least once.
-/
namespace EmailParser.Timed

variable {α β γ : Type} {c : Cfg} {i : Bytes} {n : Nat}

/-- After `n` steps since the input was `i`, the computation makes as many steps as are needed to have
counted every byte of `i` that it does not leave. -/
def Pays (n : Nat) (i : Bytes) (x : TRes α) : Prop :=
  Within x n (fun a k => i.length ≤ a.1.length + k) fun _ => True

namespace Pays

theorem ok {r : Bytes} {v : α} (h : i.length ≤ r.length + n) : Pays n i (.ok (r, v)) := within_ok.mpr h
theorem err {e : Error} : Pays n i (.err e : TRes α) := within_err.mpr trivial
theorem abort {e : Abort} : Pays n i (.abort e : TRes α) := within_abort.mpr trivial

theorem use {j : Bytes} {x : TRes α} (h : Pays 0 j x) (hi : i.length ≤ j.length + n) : Pays n i x :=
  Within.use h (fun a k _ hk => by omega) fun _ _ _ => trivial

theorem bind {j : Bytes} {x : TRes α} {f : Bytes × α → TRes β} (h : Pays 0 j x)
    (hf : ∀ r v k, j.length ≤ r.length + k → Pays (n + k) i (f (r, v))) : Pays n i (x >>= f) :=
  Within.bind h (fun a k _ hk => hf a.1 a.2 k hk) fun _ _ _ => trivial

theorem bindUnit {j : Bytes} {x : TRes Unit} {f : Bytes × Unit → TRes β} (h : Pays 0 j x)
    (hf : ∀ r k, j.length ≤ r.length + k → Pays (n + k) i (f (r, ()))) : Pays n i (x >>= f) :=
  bind h fun r () k hk => hf r k hk

theorem on {j : Bytes} {x : TRes α} {f : Outcome (Bytes × α) → TRes β} (h : Pays 0 j x)
    (hs : ∀ r v k, j.length ≤ r.length + k → Pays (n + k) i (f (.ok (r, v))))
    (he : ∀ e k, Pays (n + k) i (f (.err e))) (ha : ∀ e k, Pays (n + k) i (f (.abort e))) :
    Pays n i (x.on f) :=
  Within.on h (fun a k _ hk => hs a.1 a.2 k hk) (fun e k _ _ => he e k) fun e k _ _ => ha e k

theorem lift {x : Outcome α} {f : α → TRes β} (hf : ∀ a, x = .ok a → Pays n i (f a)) :
    Pays n i (Timed.lift x >>= f) :=
  within_bind.mpr (within_lift (fun a ha => hf a ha) trivial)

theorem tick {m : Nat} {f : Unit → TRes β} (h : Pays (n + m) i (f ())) : Pays n i (Timed.tick m >>= f) :=
  within_tick.mpr h

theorem ite {p : Prop} [Decidable p] {x y : TRes α} (hx : p → Pays n i x) (hy : ¬ p → Pays n i y) :
    Pays n i (if p then x else y) := by
  split
  · exact hx ‹_›
  · exact hy ‹_›

theorem mapErr {x : TRes α} {e : Error} (h : Pays 0 i x) : Pays 0 i (x.mapErr e) := by
  obtain ⟨o, k⟩ := x
  unfold Pays Within Timed.mapErr at *
  cases o with
  | ok a => exact h
  | err _ => trivial
  | abort _ => trivial

theorem from_drop {j r : Bytes} {m : Nat} (h : getUncheckedFrom j m = .ok r) : r.length = j.length - m := by
  unfold getUncheckedFrom at h
  split at h
  · cases h
    rw [List.length_drop]
  · cases h

theorem slice_drop {j r : Bytes} {m : Nat} (h : sliceFrom j m = .ok r) : r.length = j.length - m := by
  unfold sliceFrom at h
  split at h
  · cases h
    rw [List.length_drop]
  · cases h

/-- The input after an unchecked slice. -/
theorem liftFrom {j : Bytes} {m : Nat} {f : Bytes → TRes β}
    (hf : ∀ r, r.length = j.length - m → Pays n i (f r)) : Pays n i (Timed.lift (getUncheckedFrom j m) >>= f) :=
  lift fun r h => hf r (from_drop h)

/-- The input after a slice. -/
theorem liftSlice {j : Bytes} {m : Nat} {f : Bytes → TRes β}
    (hf : ∀ r, r.length = j.length - m → Pays n i (f r)) : Pays n i (Timed.lift (sliceFrom j m) >>= f) :=
  lift fun r h => hf r (slice_drop h)

/-! ### Combinators -/

theorem tag {e : Bytes} {m : String} : Pays 0 i (Timed.tag i e m) := by
  unfold Timed.tag
  refine tick (ite (fun _ => liftFrom fun r h => ok ?_) fun _ => err)
  omega

theorem tagNoCaseLoop (e f : Bytes) (m : String) : ∀ (n x : Nat),
    Within (Timed.tagNoCaseLoop i e f m x n) 0 (fun _ k => k = n) fun _ => True
  | 0, x => within_ok.mpr rfl
  | n + 1, x => by
    unfold Timed.tagNoCaseLoop
    refine within_tick.mpr (within_bind.mpr (within_lift (fun _ _ => ?_) trivial))
    refine within_bind.mpr (within_lift (fun _ _ => ?_) trivial)
    refine within_bind.mpr (within_lift (fun _ _ => ?_) trivial)
    split
    · exact within_err.mpr trivial
    · exact (tagNoCaseLoop e f m n (x + 1)).use (fun _ k _ hk => by omega) fun _ _ _ => trivial

theorem tagNoCase {e f : Bytes} {m : String} : Pays 0 i (Timed.tagNoCase i e f m) := by
  unfold Timed.tagNoCase
  refine tick (ite (fun _ => ite (fun _ => err) fun _ => ?_) fun _ => abort)
  refine Within.bind (tagNoCaseLoop e f m e.length 0) (fun _ k _ hk => ?_) fun _ _ _ => trivial
  exact liftFrom fun r h => ok (by omega)

theorem optional {p : Bytes → TRes α} (h : Pays 0 i (p i)) : Pays 0 i (Timed.optional i p) := by
  refine on h (fun r v k hk => ok ?_) (fun _ _ => ok ?_) fun _ _ => abort <;> omega

theorem matchNil : Pays 0 i (Timed.matchParsers i ([] : List (Bytes → TRes α))) := err

theorem matchCons {p : Bytes → TRes α} {ps : List (Bytes → TRes α)} (h : Pays 0 i (p i))
    (hs : Pays 0 i (Timed.matchParsers i ps)) : Pays 0 i (Timed.matchParsers i (p :: ps)) := by
  refine on h (fun r v k hk => ok ?_) (fun _ _ => hs.use ?_) fun _ _ => abort <;> omega

theorem matchAll {ps : List (Bytes → TRes α)} (h : ∀ p ∈ ps, Pays 0 i (p i)) :
    Pays 0 i (Timed.matchParsers i ps) := by
  induction ps with
  | nil => exact matchNil
  | cons p ps ih => exact matchCons (h p (by simp)) (ih fun q hq => h q (by simp [hq]))

theorem examined_ge (p : UInt8 → Bool) (i : Bytes) : i.length ≤ (i.dropWhile p).length + examined p i := by
  induction i with
  | nil => exact Nat.zero_le _
  | cons b t ih =>
    rw [List.dropWhile_cons]
    unfold examined
    split
    · simp only [List.length_cons]; omega
    · simp only [List.length_cons]; omega

theorem takeWhile {p : UInt8 → Bool} : Pays 0 i (Timed.takeWhile i p) := by
  refine within_of_out ((takeWhile_out i p).trans (takeWhile_eq i p)) ?_
  have := examined_ge p i
  rw [takeWhile_cost]
  dsimp only
  omega

theorem takeWhile1 {p : UInt8 → Bool} : Pays 0 i (Timed.takeWhile1 i p) := by
  have e := takeWhile1_out i p
  rw [takeWhile1_eq] at e
  split at e
  · exact within_of_err e trivial
  · refine within_of_out e ?_
    have := examined_ge p i
    rw [takeWhile1_cost]
    dsimp only
    omega

/-- The parsers that are known to pay. -/
syntax "pays_leaf" : tactic
macro_rules | `(tactic| pays_leaf) => `(tactic| with_reducible exact Pays.err)
macro_rules | `(tactic| pays_leaf) => `(tactic| with_reducible exact Pays.abort)
macro_rules | `(tactic| pays_leaf) => `(tactic| with_reducible exact Pays.matchNil)
macro_rules | `(tactic| pays_leaf) => `(tactic| with_reducible exact Pays.tag)
macro_rules | `(tactic| pays_leaf) => `(tactic| with_reducible exact Pays.tagNoCase)
macro_rules | `(tactic| pays_leaf) => `(tactic| with_reducible exact Pays.takeWhile)
macro_rules | `(tactic| pays_leaf) => `(tactic| with_reducible exact Pays.takeWhile1)

/-- Rules for particular computations. -/
syntax "pays_rule" : tactic
macro_rules | `(tactic| pays_rule) => `(tactic| (with_reducible apply Pays.optional; try dsimp only))
macro_rules | `(tactic| pays_rule) => `(tactic| (with_reducible apply Pays.matchCons <;> try dsimp only))
macro_rules | `(tactic| pays_rule) => `(tactic| with_reducible apply Pays.mapErr)

/-- One step of the evaluation of a parser. -/
macro "pays_step" : tactic => `(tactic| first
  | pays_leaf
  | ((with_reducible apply Pays.ok); first | omega | (simp only [List.length_cons] at *; omega))
  | (with_reducible apply Pays.tick; try dsimp only)
  | (with_reducible apply Pays.liftFrom; intro _ _; try dsimp only)
  | (with_reducible apply Pays.liftSlice; intro _ _; try dsimp only)
  | (with_reducible apply Pays.lift; intro _ _; try dsimp only)
  | pays_rule
  | (with_reducible apply Pays.bindUnit <;> (try intro _ _ _) <;> try dsimp only)
  | (with_reducible apply Pays.bind <;> (try intro _ _ _ _) <;> try dsimp only)
  | (with_reducible apply Pays.on <;> (first | intro _ _ _ _ | intro _ _ | skip) <;> try dsimp only)
  | (with_reducible apply Pays.ite <;> (try intro _) <;> try dsimp only)
  | ((with_reducible apply Pays.use); pays_leaf; omega)
  | split)

/-- Evaluation of a parser. -/
macro "pays" : tactic => `(tactic| repeat' pays_step)

/-! ### Loops -/

theorem ignoreManyLoop {p : Bytes → TRes α} (hp : ∀ j, Pays 0 j (p j)) : ∀ n i, Pays 0 i (Timed.ignoreManyLoop p n i)
  | 0, i => abort
  | n + 1, i => by
    have ih := ignoreManyLoop hp n
    unfold Timed.ignoreManyLoop
    refine tick (on (hp i) (fun r v k hk => (ih r).use ?_) (fun _ _ => ok ?_) fun _ _ => abort) <;> omega

theorem manyLoop {p : Bytes → TRes α} (hp : ∀ j, Pays 0 j (p j)) : ∀ n i, Pays 0 i (Timed.manyLoop p n i)
  | 0, i => abort
  | n + 1, i => by
    have ih := manyLoop hp n
    unfold Timed.manyLoop
    refine tick (on (hp i) (fun r v k hk => bind (ih r) fun s w m hm => ok ?_) (fun _ _ => ok ?_) fun _ _ => abort) <;>
      omega

theorem collectManyLoop {p : Bytes → TRes Bytes} (hp : ∀ j, Pays 0 j (p j)) :
    ∀ n i, Pays 0 i (Timed.collectManyLoop p n i)
  | 0, i => abort
  | n + 1, i => by
    have ih := collectManyLoop hp n
    unfold Timed.collectManyLoop
    refine tick (on (hp i) (fun r v k hk => bind (ih r) fun s w m hm => ok ?_) (fun _ _ => ok ?_) fun _ _ => abort) <;>
      omega

theorem ignoreMany {p : Bytes → TRes α} (hp : ∀ j, Pays 0 j (p j)) : Pays 0 i (Timed.ignoreMany i p) :=
  ignoreManyLoop hp _ i

theorem many {p : Bytes → TRes α} (hp : ∀ j, Pays 0 j (p j)) : Pays 0 i (Timed.many i p) := manyLoop hp _ i

theorem many1 {p : Bytes → TRes α} (hp : ∀ j, Pays 0 j (p j)) : Pays 0 i (Timed.many1 i p) := by
  unfold Timed.many1
  refine bind (hp i) fun r v k hk => bind (manyLoop hp _ r) fun s w m hm => ok ?_
  omega

theorem collectMany {p : Bytes → TRes Bytes} (hp : ∀ j, Pays 0 j (p j)) : Pays 0 i (Timed.collectMany i p) :=
  collectManyLoop hp _ i

theorem pair {p : Bytes → TRes α} {q : Bytes → TRes β} (hp : ∀ j, Pays 0 j (p j)) (hq : ∀ j, Pays 0 j (q j)) :
    Pays 0 i (Timed.pair i p q) := by
  unfold Timed.pair
  refine bind (hp i) fun r v k hk => bind (hq r) fun s w m hm => ok ?_
  omega

theorem triplet {p : Bytes → TRes α} {q : Bytes → TRes β} {u : Bytes → TRes γ} (hp : ∀ j, Pays 0 j (p j))
    (hq : ∀ j, Pays 0 j (q j)) (hu : ∀ j, Pays 0 j (u j)) : Pays 0 i (Timed.triplet i p q u) := by
  unfold Timed.triplet
  refine bind (hp i) fun r v k hk => bind (hq r) fun s w m hm => bind (hu s) fun t x l hl => ok ?_
  omega

theorem collectPair {p q : Bytes → TRes Bytes} (hp : ∀ j, Pays 0 j (p j)) (hq : ∀ j, Pays 0 j (q j)) :
    Pays 0 i (Timed.collectPair i p q) := by
  unfold Timed.collectPair
  refine bind (hp i) fun r v k hk => bind (hq r) fun s w m hm => ok ?_
  omega

theorem prefixed {p : Bytes → TRes α} {e : Bytes} (hp : ∀ j, Pays 0 j (p j)) : Pays 0 i (Timed.prefixed i p e) := by
  unfold Timed.prefixed
  refine tick (ite (fun _ => liftFrom fun r h => (hp r).use ?_) fun _ => err)
  omega

macro_rules | `(tactic| pays_rule) => `(tactic| (with_reducible apply Pays.ignoreMany <;> intro _ <;> try dsimp only))
macro_rules | `(tactic| pays_rule) => `(tactic| (with_reducible apply Pays.many <;> intro _ <;> try dsimp only))
macro_rules | `(tactic| pays_rule) => `(tactic| (with_reducible apply Pays.many1 <;> intro _ <;> try dsimp only))
macro_rules | `(tactic| pays_rule) => `(tactic| (with_reducible apply Pays.collectMany <;> intro _ <;> try dsimp only))
macro_rules | `(tactic| pays_rule) => `(tactic| (with_reducible apply Pays.pair <;> intro _ <;> try dsimp only))
macro_rules | `(tactic| pays_rule) => `(tactic| (with_reducible apply Pays.triplet <;> intro _ <;> try dsimp only))
macro_rules | `(tactic| pays_rule) => `(tactic| (with_reducible apply Pays.collectPair <;> intro _ <;> try dsimp only))
macro_rules | `(tactic| pays_rule) => `(tactic| (with_reducible apply Pays.prefixed <;> intro _ <;> try dsimp only))

/-! ### White space and words -/

theorem fws : Pays 0 i (Timed.fws i) := by
  unfold Timed.fws
  pays
macro_rules | `(tactic| pays_leaf) => `(tactic| with_reducible exact Pays.fws)

theorem fwsOrEmpty : Pays 0 i (Timed.fwsOrEmpty i) := by
  unfold Timed.fwsOrEmpty
  pays
macro_rules | `(tactic| pays_leaf) => `(tactic| with_reducible exact Pays.fwsOrEmpty)

theorem quotedPair : Pays 0 i (Timed.quotedPair i) := by
  unfold Timed.quotedPair
  pays
macro_rules | `(tactic| pays_leaf) => `(tactic| with_reducible exact Pays.quotedPair)

theorem comment : ∀ n i, Pays 0 i (Timed.comment n i)
  | 0, i => by
    unfold Timed.comment
    pays
  | n + 1, i => by
    have ih := comment n
    unfold Timed.comment Timed.ccontent
    repeat' (first | exact ih _ | pays_step)
macro_rules | `(tactic| pays_leaf) => `(tactic| with_reducible exact Pays.comment _ _)

theorem realCfwsLoop : ∀ n i, Pays 0 i (Timed.realCfwsLoop c n i)
  | 0, i => abort
  | n + 1, i => by
    have ih := realCfwsLoop n
    unfold Timed.realCfwsLoop
    repeat' (first | exact ih _ | pays_step)
macro_rules | `(tactic| pays_leaf) => `(tactic| with_reducible exact Pays.realCfwsLoop _ _)

theorem realCfws : Pays 0 i (Timed.realCfws c i) := by
  unfold Timed.realCfws
  pays
macro_rules | `(tactic| pays_leaf) => `(tactic| with_reducible exact Pays.realCfws)

theorem cfws : Pays 0 i (Timed.cfws c i) := by
  unfold Timed.cfws
  pays
macro_rules | `(tactic| pays_leaf) => `(tactic| with_reducible exact Pays.cfws)

theorem skip {j : Bytes} {f : Bytes → TRes β} (hf : ∀ r k, j.length ≤ r.length + k → Pays (n + k) i (f r)) :
    Pays n i (skipCfws c j >>= f) := by
  refine Within.bind (S := fun r k => j.length ≤ r.length + k) (F := fun _ => True) ?_ (fun r k _ hk => hf r k hk)
    fun _ _ _ => trivial
  unfold skipCfws
  refine Within.on (cfws (c := c) (i := j)) (fun a k _ hk => within_ok.mpr ?_) (fun e k _ _ => within_ok.mpr ?_)
    fun e k _ _ => within_abort.mpr trivial <;> omega
macro_rules | `(tactic| pays_rule) => `(tactic| (with_reducible apply Pays.skip; intro _ _ _; try dsimp only))

theorem quotedStringLoop : ∀ n i, Pays 0 i (Timed.quotedStringLoop n i)
  | 0, i => abort
  | n + 1, i => by
    have ih := quotedStringLoop n
    unfold Timed.quotedStringLoop
    repeat' (first | exact ih _ | pays_step)
macro_rules | `(tactic| pays_leaf) => `(tactic| with_reducible exact Pays.quotedStringLoop _ _)

theorem quotedString : Pays 0 i (Timed.quotedString c i) := by
  unfold Timed.quotedString
  pays
macro_rules | `(tactic| pays_leaf) => `(tactic| with_reducible exact Pays.quotedString)

theorem charset : Pays 0 i (Timed.charset i) := by
  unfold Timed.charset
  pays
macro_rules | `(tactic| pays_leaf) => `(tactic| with_reducible exact Pays.charset)

theorem encoding : Pays 0 i (Timed.encoding i) := by
  unfold Timed.encoding
  pays
macro_rules | `(tactic| pays_leaf) => `(tactic| with_reducible exact Pays.encoding)

theorem encodedText : Pays 0 i (Timed.encodedText i) := by
  unfold Timed.encodedText
  pays
macro_rules | `(tactic| pays_leaf) => `(tactic| with_reducible exact Pays.encodedText)

theorem encodedWord : Pays 0 i (Timed.encodedWord c i) := by
  unfold Timed.encodedWord
  pays
macro_rules | `(tactic| pays_leaf) => `(tactic| with_reducible exact Pays.encodedWord)

theorem atom : Pays 0 i (Timed.atom c i) := by
  unfold Timed.atom
  pays
macro_rules | `(tactic| pays_leaf) => `(tactic| with_reducible exact Pays.atom)


theorem dotAtomTextLoop : ∀ n i, Pays 0 i (Timed.dotAtomTextLoop c n i)
  | 0, i => abort
  | n + 1, i => by
    have ih := dotAtomTextLoop n
    unfold Timed.dotAtomTextLoop
    repeat' (first | exact ih _ | pays_step)
macro_rules | `(tactic| pays_leaf) => `(tactic| with_reducible exact Pays.dotAtomTextLoop _ _)

theorem dotAtomText : Pays 0 i (Timed.dotAtomText c i) := by
  unfold Timed.dotAtomText
  pays
macro_rules | `(tactic| pays_leaf) => `(tactic| with_reducible exact Pays.dotAtomText)

theorem dotAtom : Pays 0 i (Timed.dotAtom c i) := by
  unfold Timed.dotAtom
  pays
macro_rules | `(tactic| pays_leaf) => `(tactic| with_reducible exact Pays.dotAtom)

theorem word : Pays 0 i (Timed.word c i) := by
  unfold Timed.word
  pays
macro_rules | `(tactic| pays_leaf) => `(tactic| with_reducible exact Pays.word)

theorem phraseWord : Pays 0 i (Timed.phraseWord c i) := by
  unfold Timed.phraseWord
  pays
macro_rules | `(tactic| pays_leaf) => `(tactic| with_reducible exact Pays.phraseWord)

theorem phrase : Pays 0 i (Timed.phrase c i) := by
  unfold Timed.phrase
  pays
macro_rules | `(tactic| pays_leaf) => `(tactic| with_reducible exact Pays.phrase)

theorem dropWsp : Pays 0 i (Timed.dropWsp i) := by
  unfold Timed.dropWsp
  pays
macro_rules | `(tactic| pays_leaf) => `(tactic| with_reducible exact Pays.dropWsp)

theorem unstructured : Pays 0 i (Timed.unstructured i) := by
  unfold Timed.unstructured
  pays
macro_rules | `(tactic| pays_leaf) => `(tactic| with_reducible exact Pays.unstructured)

theorem mimeUnstructuredLoop : ∀ n b i, Pays 0 i (Timed.mimeUnstructuredLoop c n b i)
  | 0, _, i => abort
  | n + 1, b, i => by
    have ih := mimeUnstructuredLoop n
    unfold Timed.mimeUnstructuredLoop
    repeat' (first | exact ih _ _ | pays_step)
macro_rules | `(tactic| pays_leaf) => `(tactic| with_reducible exact Pays.mimeUnstructuredLoop _ _ _)

theorem mimeUnstructured : Pays 0 i (Timed.mimeUnstructured c i) := by
  unfold Timed.mimeUnstructured
  pays
macro_rules | `(tactic| pays_leaf) => `(tactic| with_reducible exact Pays.mimeUnstructured)

theorem headerLine {e f : Bytes} {m m' : String} {p : Bytes → TRes α} (hp : ∀ j, Pays 0 j (p j)) :
    Pays 0 i (Timed.headerLine e f m m' p i) := by
  unfold Timed.headerLine
  repeat' (first | exact hp _ | pays_step)

macro_rules | `(tactic| pays_rule) => `(tactic| (with_reducible apply Pays.headerLine; intro _))

/-! ### Addresses and dates -/

theorem noFoldLitteral : Pays 0 i (Timed.noFoldLitteral i) := by
  unfold Timed.noFoldLitteral
  pays
macro_rules | `(tactic| pays_leaf) => `(tactic| with_reducible exact Pays.noFoldLitteral)

theorem messageId : Pays 0 i (Timed.messageId c i) := by
  unfold Timed.messageId
  pays
macro_rules | `(tactic| pays_leaf) => `(tactic| with_reducible exact Pays.messageId)


theorem domainLiteralLoop : ∀ n i, Pays 0 i (Timed.domainLiteralLoop n i)
  | 0, i => abort
  | n + 1, i => by
    have ih := domainLiteralLoop n
    unfold Timed.domainLiteralLoop
    repeat' (first | exact ih _ | pays_step)
macro_rules | `(tactic| pays_leaf) => `(tactic| with_reducible exact Pays.domainLiteralLoop _ _)

theorem domainLiteral : Pays 0 i (Timed.domainLiteral c i) := by
  unfold Timed.domainLiteral
  pays
macro_rules | `(tactic| pays_leaf) => `(tactic| with_reducible exact Pays.domainLiteral)

theorem localPart : Pays 0 i (Timed.localPart c i) := by
  unfold Timed.localPart
  pays
macro_rules | `(tactic| pays_leaf) => `(tactic| with_reducible exact Pays.localPart)

theorem domain : Pays 0 i (Timed.domain c i) := by
  unfold Timed.domain
  pays
macro_rules | `(tactic| pays_leaf) => `(tactic| with_reducible exact Pays.domain)

theorem addrSpec : Pays 0 i (Timed.addrSpec c i) := by
  unfold Timed.addrSpec
  pays
macro_rules | `(tactic| pays_leaf) => `(tactic| with_reducible exact Pays.addrSpec)

theorem angleAddr : Pays 0 i (Timed.angleAddr c i) := by
  unfold Timed.angleAddr
  pays
macro_rules | `(tactic| pays_leaf) => `(tactic| with_reducible exact Pays.angleAddr)

theorem nameAddr : Pays 0 i (Timed.nameAddr c i) := by
  unfold Timed.nameAddr
  pays
macro_rules | `(tactic| pays_leaf) => `(tactic| with_reducible exact Pays.nameAddr)

theorem mailbox : Pays 0 i (Timed.mailbox c i) := by
  unfold Timed.mailbox
  pays
macro_rules | `(tactic| pays_leaf) => `(tactic| with_reducible exact Pays.mailbox)

theorem mailboxList : Pays 0 i (Timed.mailboxList c i) := by
  unfold Timed.mailboxList
  pays
macro_rules | `(tactic| pays_leaf) => `(tactic| with_reducible exact Pays.mailboxList)

theorem groupList : Pays 0 i (Timed.groupList c i) := by
  unfold Timed.groupList
  pays
macro_rules | `(tactic| pays_leaf) => `(tactic| with_reducible exact Pays.groupList)

theorem group : Pays 0 i (Timed.group c i) := by
  unfold Timed.group
  pays
macro_rules | `(tactic| pays_leaf) => `(tactic| with_reducible exact Pays.group)

theorem address : Pays 0 i (Timed.address c i) := by
  unfold Timed.address
  pays
macro_rules | `(tactic| pays_leaf) => `(tactic| with_reducible exact Pays.address)

theorem addressList : Pays 0 i (Timed.addressList c i) := by
  unfold Timed.addressList
  pays
macro_rules | `(tactic| pays_leaf) => `(tactic| with_reducible exact Pays.addressList)

theorem digit : Pays 0 i (Timed.digit i) := by
  unfold Timed.digit
  pays
macro_rules | `(tactic| pays_leaf) => `(tactic| with_reducible exact Pays.digit)

theorem twoDigits : Pays 0 i (Timed.twoDigits i) := by
  unfold Timed.twoDigits
  pays
macro_rules | `(tactic| pays_leaf) => `(tactic| with_reducible exact Pays.twoDigits)

theorem dayName : Pays 0 i (Timed.dayName i) := by
  unfold Timed.dayName
  refine tick (ite (fun _ => ?_) fun _ => err)
  split
  · refine ok ?_
    rw [List.length_drop]
    omega
  · exact err
macro_rules | `(tactic| pays_leaf) => `(tactic| with_reducible exact Pays.dayName)

theorem month : Pays 0 i (Timed.month i) := by
  unfold Timed.month
  refine tick (ite (fun _ => ?_) fun _ => err)
  split
  · refine ok ?_
    rw [List.length_drop]
    omega
  · exact err
macro_rules | `(tactic| pays_leaf) => `(tactic| with_reducible exact Pays.month)

theorem dayOfWeek : Pays 0 i (Timed.dayOfWeek i) := by
  unfold Timed.dayOfWeek
  pays
macro_rules | `(tactic| pays_leaf) => `(tactic| with_reducible exact Pays.dayOfWeek)

theorem year : Pays 0 i (Timed.year i) := by
  unfold Timed.year
  pays
macro_rules | `(tactic| pays_leaf) => `(tactic| with_reducible exact Pays.year)

theorem secondDigit {d : Nat} : Pays 0 i (Timed.secondDigit d i) := by
  unfold Timed.secondDigit
  pays
macro_rules | `(tactic| pays_leaf) => `(tactic| with_reducible exact Pays.secondDigit)

theorem day : Pays 0 i (Timed.day i) := by
  unfold Timed.day
  pays
macro_rules | `(tactic| pays_leaf) => `(tactic| with_reducible exact Pays.day)

theorem timeOfDay : Pays 0 i (Timed.timeOfDay i) := by
  unfold Timed.timeOfDay
  pays
macro_rules | `(tactic| pays_leaf) => `(tactic| with_reducible exact Pays.timeOfDay)

theorem zoneSign : Pays 0 i (Timed.zoneSign i) := by
  unfold Timed.zoneSign
  pays
macro_rules | `(tactic| pays_leaf) => `(tactic| with_reducible exact Pays.zoneSign)

theorem zone : Pays 0 i (Timed.zone i) := by
  unfold Timed.zone
  pays
macro_rules | `(tactic| pays_leaf) => `(tactic| with_reducible exact Pays.zone)

theorem time : Pays 0 i (Timed.time i) := by
  unfold Timed.time
  pays
macro_rules | `(tactic| pays_leaf) => `(tactic| with_reducible exact Pays.time)

theorem date : Pays 0 i (Timed.date i) := by
  unfold Timed.date
  pays
macro_rules | `(tactic| pays_leaf) => `(tactic| with_reducible exact Pays.date)

theorem dateTime : Pays 0 i (Timed.dateTime c i) := by
  unfold Timed.dateTime
  pays
macro_rules | `(tactic| pays_leaf) => `(tactic| with_reducible exact Pays.dateTime)

/-! ### MIME fields -/

theorem ignoreInlineCfws : Pays 0 i (Timed.ignoreInlineCfws c i) := by
  unfold Timed.ignoreInlineCfws
  pays
macro_rules | `(tactic| pays_leaf) => `(tactic| with_reducible exact Pays.ignoreInlineCfws)

theorem token : Pays 0 i (Timed.token i) := by
  unfold Timed.token
  pays
macro_rules | `(tactic| pays_leaf) => `(tactic| with_reducible exact Pays.token)

theorem u8NumberLoop : ∀ n i d, Pays 0 i (Timed.u8NumberLoop n i d)
  | 0, i, _ => abort
  | n + 1, i, d => by
    have ih := u8NumberLoop n
    unfold Timed.u8NumberLoop
    refine tick (on digit (fun r v k hk => ite (fun _ => ite (fun _ => (ih r _).use ?_) fun _ => err) fun _ => err)
      (fun _ _ => ok ?_) fun _ _ => abort) <;> omega
macro_rules | `(tactic| pays_leaf) => `(tactic| with_reducible exact Pays.u8NumberLoop _ _ _)

theorem u8Number : Pays 0 i (Timed.u8Number i) := by
  unfold Timed.u8Number
  pays
macro_rules | `(tactic| pays_leaf) => `(tactic| with_reducible exact Pays.u8Number)

theorem mimeVersionValue : Pays 0 i (Timed.mimeVersionValue c i) := by
  unfold Timed.mimeVersionValue
  pays
macro_rules | `(tactic| pays_leaf) => `(tactic| with_reducible exact Pays.mimeVersionValue)

theorem mimeVersion : Pays 0 i (Timed.mimeVersion c i) := by
  unfold Timed.mimeVersion
  pays
macro_rules | `(tactic| pays_leaf) => `(tactic| with_reducible exact Pays.mimeVersion)

theorem encodedMark : Pays 0 i (Timed.encodedMark i) := by
  unfold Timed.encodedMark
  pays
macro_rules | `(tactic| pays_leaf) => `(tactic| with_reducible exact Pays.encodedMark)

theorem extendedName : Pays 0 i (Timed.extendedName i) := by
  unfold Timed.extendedName
  pays
macro_rules | `(tactic| pays_leaf) => `(tactic| with_reducible exact Pays.extendedName)

theorem parameterValue : Pays 0 i (Timed.parameterValue c i) := by
  unfold Timed.parameterValue
  pays
macro_rules | `(tactic| pays_leaf) => `(tactic| with_reducible exact Pays.parameterValue)

theorem parameter : Pays 0 i (Timed.parameter c i) := by
  unfold Timed.parameter
  pays
macro_rules | `(tactic| pays_leaf) => `(tactic| with_reducible exact Pays.parameter)

theorem keyword {e f : Bytes} {m : String} {v : α} : Pays 0 i (Timed.keyword e f m v i) := by
  unfold Timed.keyword
  pays
macro_rules | `(tactic| pays_leaf) => `(tactic| with_reducible exact Pays.keyword)

theorem otherToken {g : Bytes → α} : Pays 0 i (Timed.otherToken g i) := by
  unfold Timed.otherToken
  pays
macro_rules | `(tactic| pays_leaf) => `(tactic| with_reducible exact Pays.otherToken)

theorem mimeType : Pays 0 i (Timed.mimeType i) := by
  unfold Timed.mimeType
  pays
macro_rules | `(tactic| pays_leaf) => `(tactic| with_reducible exact Pays.mimeType)

theorem contentTypeValue : Pays 0 i (Timed.contentTypeValue c i) := by
  unfold Timed.contentTypeValue
  pays
macro_rules | `(tactic| pays_leaf) => `(tactic| with_reducible exact Pays.contentTypeValue)

theorem contentType : Pays 0 i (Timed.contentType c i) := by
  unfold Timed.contentType
  pays
macro_rules | `(tactic| pays_leaf) => `(tactic| with_reducible exact Pays.contentType)

theorem filenameParameter : Pays 0 i (Timed.filenameParameter c i) := by
  unfold Timed.filenameParameter
  pays
macro_rules | `(tactic| pays_leaf) => `(tactic| with_reducible exact Pays.filenameParameter)

theorem dateParameter {e f : Bytes} : Pays 0 i (Timed.dateParameter c i e f) := by
  unfold Timed.dateParameter
  pays
macro_rules | `(tactic| pays_leaf) => `(tactic| with_reducible exact Pays.dateParameter)

theorem dispositionType : Pays 0 i (Timed.dispositionType i) := by
  unfold Timed.dispositionType
  pays
macro_rules | `(tactic| pays_leaf) => `(tactic| with_reducible exact Pays.dispositionType)

theorem dispositionItem : Pays 0 i (Timed.dispositionItem c i) := by
  unfold Timed.dispositionItem
  pays
macro_rules | `(tactic| pays_leaf) => `(tactic| with_reducible exact Pays.dispositionItem)

theorem contentDispositionValue : Pays 0 i (Timed.contentDispositionValue c i) := by
  unfold Timed.contentDispositionValue
  pays
macro_rules | `(tactic| pays_leaf) => `(tactic| with_reducible exact Pays.contentDispositionValue)

theorem contentDisposition : Pays 0 i (Timed.contentDisposition c i) := by
  unfold Timed.contentDisposition
  pays
macro_rules | `(tactic| pays_leaf) => `(tactic| with_reducible exact Pays.contentDisposition)

theorem transferEncoding : Pays 0 i (Timed.transferEncoding i) := by
  unfold Timed.transferEncoding
  pays
macro_rules | `(tactic| pays_leaf) => `(tactic| with_reducible exact Pays.transferEncoding)

theorem transferEncodingValue : Pays 0 i (Timed.transferEncodingValue c i) := by
  unfold Timed.transferEncodingValue
  pays
macro_rules | `(tactic| pays_leaf) => `(tactic| with_reducible exact Pays.transferEncodingValue)

theorem contentTransferEncoding : Pays 0 i (Timed.contentTransferEncoding c i) := by
  unfold Timed.contentTransferEncoding
  pays
macro_rules | `(tactic| pays_leaf) => `(tactic| with_reducible exact Pays.contentTransferEncoding)

theorem contentId : Pays 0 i (Timed.contentId c i) := by
  unfold Timed.contentId
  pays
macro_rules | `(tactic| pays_leaf) => `(tactic| with_reducible exact Pays.contentId)

theorem contentDescription : Pays 0 i (Timed.contentDescription c i) := by
  unfold Timed.contentDescription
  pays
macro_rules | `(tactic| pays_leaf) => `(tactic| with_reducible exact Pays.contentDescription)

/-! ### Fields -/

theorem bccValue : Pays 0 i (Timed.bccValue c i) := by
  unfold Timed.bccValue
  pays
macro_rules | `(tactic| pays_leaf) => `(tactic| with_reducible exact Pays.bccValue)

theorem messageIds : Pays 0 i (Timed.messageIds c i) := by
  unfold Timed.messageIds
  pays
macro_rules | `(tactic| pays_leaf) => `(tactic| with_reducible exact Pays.messageIds)

theorem textValue : Pays 0 i (Timed.textValue c i) := by
  unfold Timed.textValue
  pays
macro_rules | `(tactic| pays_leaf) => `(tactic| with_reducible exact Pays.textValue)

theorem keywordList : Pays 0 i (Timed.keywordList c i) := by
  unfold Timed.keywordList
  pays
macro_rules | `(tactic| pays_leaf) => `(tactic| with_reducible exact Pays.keywordList)

theorem dateField : Pays 0 i (Timed.dateField c i) := by
  unfold Timed.dateField
  pays
macro_rules | `(tactic| pays_leaf) => `(tactic| with_reducible exact Pays.dateField)

theorem fromField : Pays 0 i (Timed.fromField c i) := by
  unfold Timed.fromField
  pays
macro_rules | `(tactic| pays_leaf) => `(tactic| with_reducible exact Pays.fromField)

theorem senderField : Pays 0 i (Timed.senderField c i) := by
  unfold Timed.senderField
  pays
macro_rules | `(tactic| pays_leaf) => `(tactic| with_reducible exact Pays.senderField)

theorem replyToField : Pays 0 i (Timed.replyToField c i) := by
  unfold Timed.replyToField
  pays
macro_rules | `(tactic| pays_leaf) => `(tactic| with_reducible exact Pays.replyToField)

theorem toField : Pays 0 i (Timed.toField c i) := by
  unfold Timed.toField
  pays
macro_rules | `(tactic| pays_leaf) => `(tactic| with_reducible exact Pays.toField)

theorem ccField : Pays 0 i (Timed.ccField c i) := by
  unfold Timed.ccField
  pays
macro_rules | `(tactic| pays_leaf) => `(tactic| with_reducible exact Pays.ccField)

theorem bccField : Pays 0 i (Timed.bccField c i) := by
  unfold Timed.bccField
  pays
macro_rules | `(tactic| pays_leaf) => `(tactic| with_reducible exact Pays.bccField)

theorem messageIdField : Pays 0 i (Timed.messageIdField c i) := by
  unfold Timed.messageIdField
  pays
macro_rules | `(tactic| pays_leaf) => `(tactic| with_reducible exact Pays.messageIdField)

theorem inReplyToField : Pays 0 i (Timed.inReplyToField c i) := by
  unfold Timed.inReplyToField
  pays
macro_rules | `(tactic| pays_leaf) => `(tactic| with_reducible exact Pays.inReplyToField)

theorem referencesField : Pays 0 i (Timed.referencesField c i) := by
  unfold Timed.referencesField
  pays
macro_rules | `(tactic| pays_leaf) => `(tactic| with_reducible exact Pays.referencesField)

theorem subjectField : Pays 0 i (Timed.subjectField c i) := by
  unfold Timed.subjectField
  pays
macro_rules | `(tactic| pays_leaf) => `(tactic| with_reducible exact Pays.subjectField)

theorem commentsField : Pays 0 i (Timed.commentsField c i) := by
  unfold Timed.commentsField
  pays
macro_rules | `(tactic| pays_leaf) => `(tactic| with_reducible exact Pays.commentsField)

theorem keywordsField : Pays 0 i (Timed.keywordsField c i) := by
  unfold Timed.keywordsField
  pays
macro_rules | `(tactic| pays_leaf) => `(tactic| with_reducible exact Pays.keywordsField)

theorem resent {m : String} {p : Bytes → TRes α} (hp : ∀ j, Pays 0 j (p j)) : Pays 0 i (Timed.resent m p i) := by
  unfold Timed.resent
  repeat' (first | exact hp _ | pays_step)

macro_rules | `(tactic| pays_rule) => `(tactic| (with_reducible apply Pays.resent; intro _))

theorem resentDate : Pays 0 i (Timed.resentDate c i) := by
  unfold Timed.resentDate
  pays
macro_rules | `(tactic| pays_leaf) => `(tactic| with_reducible exact Pays.resentDate)

theorem resentFrom : Pays 0 i (Timed.resentFrom c i) := by
  unfold Timed.resentFrom
  pays
macro_rules | `(tactic| pays_leaf) => `(tactic| with_reducible exact Pays.resentFrom)

theorem resentSender : Pays 0 i (Timed.resentSender c i) := by
  unfold Timed.resentSender
  pays
macro_rules | `(tactic| pays_leaf) => `(tactic| with_reducible exact Pays.resentSender)

theorem resentTo : Pays 0 i (Timed.resentTo c i) := by
  unfold Timed.resentTo
  pays
macro_rules | `(tactic| pays_leaf) => `(tactic| with_reducible exact Pays.resentTo)

theorem resentCc : Pays 0 i (Timed.resentCc c i) := by
  unfold Timed.resentCc
  pays
macro_rules | `(tactic| pays_leaf) => `(tactic| with_reducible exact Pays.resentCc)

theorem resentBcc : Pays 0 i (Timed.resentBcc c i) := by
  unfold Timed.resentBcc
  pays
macro_rules | `(tactic| pays_leaf) => `(tactic| with_reducible exact Pays.resentBcc)

theorem resentMessageId : Pays 0 i (Timed.resentMessageId c i) := by
  unfold Timed.resentMessageId
  pays
macro_rules | `(tactic| pays_leaf) => `(tactic| with_reducible exact Pays.resentMessageId)

theorem emptyPath : Pays 0 i (Timed.emptyPath c i) := by
  unfold Timed.emptyPath
  pays
macro_rules | `(tactic| pays_leaf) => `(tactic| with_reducible exact Pays.emptyPath)

theorem returnPathValue : Pays 0 i (Timed.returnPathValue c i) := by
  unfold Timed.returnPathValue
  pays
macro_rules | `(tactic| pays_leaf) => `(tactic| with_reducible exact Pays.returnPathValue)

theorem returnPath : Pays 0 i (Timed.returnPath c i) := by
  unfold Timed.returnPath
  pays
macro_rules | `(tactic| pays_leaf) => `(tactic| with_reducible exact Pays.returnPath)

theorem receivedToken : Pays 0 i (Timed.receivedToken c i) := by
  unfold Timed.receivedToken
  pays
macro_rules | `(tactic| pays_leaf) => `(tactic| with_reducible exact Pays.receivedToken)

theorem receivedValue : Pays 0 i (Timed.receivedValue c i) := by
  unfold Timed.receivedValue
  pays
macro_rules | `(tactic| pays_leaf) => `(tactic| with_reducible exact Pays.receivedValue)

theorem received : Pays 0 i (Timed.received c i) := by
  unfold Timed.received
  pays
macro_rules | `(tactic| pays_leaf) => `(tactic| with_reducible exact Pays.received)

theorem trace : Pays 0 i (Timed.trace c i) := by
  unfold Timed.trace
  pays
macro_rules | `(tactic| pays_leaf) => `(tactic| with_reducible exact Pays.trace)

theorem unknownValue : Pays 0 i (Timed.unknownValue c i) := by
  unfold Timed.unknownValue
  pays
macro_rules | `(tactic| pays_leaf) => `(tactic| with_reducible exact Pays.unknownValue)

theorem unknown : Pays 0 i (Timed.unknown c i) := by
  unfold Timed.unknown
  pays
macro_rules | `(tactic| pays_leaf) => `(tactic| with_reducible exact Pays.unknown)

theorem mapValue {g : α → β} {p : Bytes → TRes α} (hp : Pays 0 i (p i)) : Pays 0 i (Timed.mapValue g p i) := by
  unfold Timed.mapValue
  refine bind hp fun r v k hk => ok ?_
  omega
macro_rules | `(tactic| pays_rule) => `(tactic| with_reducible apply Pays.mapValue)

theorem traceFields : Pays 0 i (Timed.matchParsers i (traceFieldParsers c)) := by
  unfold traceFieldParsers
  pays
macro_rules | `(tactic| pays_leaf) => `(tactic| with_reducible exact Pays.traceFields)

theorem traceBlock : Pays 0 i (Timed.traceBlock c i) := by
  unfold Timed.traceBlock
  pays
macro_rules | `(tactic| pays_leaf) => `(tactic| with_reducible exact Pays.traceBlock)

theorem enabled {b : Bool} {p : Bytes → TRes α} {ps : List (Bytes → TRes α)} (hp : Pays 0 i (p i))
    (hs : Pays 0 i (Timed.matchParsers i ps)) : Pays 0 i (Timed.matchParsers i (EmailParser.enabled b p ++ ps)) := by
  unfold EmailParser.enabled
  split
  · exact matchCons hp hs
  · exact hs

theorem field : Pays 0 i (Timed.field c i) := by
  unfold Timed.field fieldParsers
  simp only [List.append_assoc]
  exact enabled (mapValue dateField) <| enabled (mapValue fromField) <| enabled (mapValue senderField) <|
    enabled (mapValue replyToField) <| enabled (mapValue toField) <| enabled (mapValue ccField) <|
    enabled (mapValue bccField) <| enabled (mapValue messageIdField) <| enabled (mapValue inReplyToField) <|
    enabled (mapValue referencesField) <| enabled (mapValue subjectField) <| enabled (mapValue commentsField) <|
    enabled (mapValue mimeVersion) <| enabled (mapValue contentType) <| enabled (mapValue contentTransferEncoding) <|
    enabled (mapValue contentId) <| enabled (mapValue contentDescription) <| enabled (mapValue contentDisposition) <|
    enabled (mapValue keywordsField) <| matchCons (mapValue unknown) matchNil
macro_rules | `(tactic| pays_leaf) => `(tactic| with_reducible exact Pays.field)

theorem traces : Pays 0 i (Timed.traces c i) := by
  unfold Timed.traces
  pays
macro_rules | `(tactic| pays_leaf) => `(tactic| with_reducible exact Pays.traces)

theorem fields : Pays 0 i (Timed.fields c i) := by
  unfold Timed.fields
  pays
macro_rules | `(tactic| pays_leaf) => `(tactic| with_reducible exact Pays.fields)

/-! ### The body -/

theorem checkLine : Pays 0 i (Timed.checkLine i) := by
  unfold Timed.checkLine
  refine tick ?_
  have h := examined_ge isText (i.take (min i.length 998))
  have hl := congrArg List.length (List.takeWhile_append_dropWhile (p := isText) (l := i.take (min i.length 998)))
  rw [List.length_append] at hl
  split
  · rename_i k hk
    have := (firstFailing_some hk).1
    refine liftFrom fun r hr => ok ?_
    rw [List.length_take] at *
    omega
  · rename_i hk
    have := (firstFailing_none hk).2
    rw [this] at h
    refine liftFrom fun r hr => ok ?_
    simp only [List.length_take, List.length_nil] at *
    omega

theorem bodyLoop : ∀ n i, Within (Timed.bodyLoop n i) 0 (fun _ k => i.length ≤ k) fun _ => True
  | 0, i => within_abort.mpr trivial
  | n + 1, i => by
    have ih := bodyLoop n
    unfold Timed.bodyLoop
    refine within_tick.mpr (Within.bind checkLine (fun a k _ hk => ?_) fun _ _ _ => trivial)
    refine Within.on tag (fun b m _ hm => (ih b.1).use (fun _ l _ hl => by omega) fun _ _ _ => trivial)
      (fun e m _ _ => ?_) fun e m _ _ => within_abort.mpr trivial
    dsimp only
    split
    · rename_i he
      have : a.1.length = 0 := by simpa using he
      exact within_ok.mpr (by omega)
    · exact within_err.mpr trivial

theorem body : Within (Timed.body i) 0 (fun _ k => i.length ≤ k) fun _ => True := by
  unfold Timed.body
  split
  · rename_i he
    have : i.length = 0 := by simpa using he
    exact within_ok.mpr (by omega)
  · refine Within.bind tag (fun a k _ hk => ?_) fun _ _ _ => trivial
    refine Within.bind (bodyLoop _ a.1) (fun _ m _ hm => ?_) fun _ _ _ => trivial
    exact within_bind.mpr (within_lift (fun _ _ => within_ok.mpr (by omega)) trivial)

/-- What is not counted of an e-mail is the body, when it is left as it is. -/
theorem parseMessage : Within (Timed.parseMessage c i) 0
    (fun a k => i.length ≤ k + if c.feat.mime then (a.2.getD []).length else 0) fun _ => True := by
  unfold Timed.parseMessage
  refine Within.bind (fields (c := c) (i := i)) (fun a k _ hk => ?_) fun _ _ _ => trivial
  dsimp only
  split
  · split
    · rename_i he
      have : a.1.length = 0 := by simpa using he
      exact within_ok.mpr (by omega)
    · refine Within.bind tag (fun b m _ hm => within_ok.mpr ?_) fun _ _ _ => trivial
      simp only [Option.getD_some]
      omega
  · refine Within.bind body (fun b m _ hm => within_ok.mpr ?_) fun _ _ _ => trivial
    omega

end Pays

theorem Within.paid {x : Timed α} {a : α} (h : Within x 0 (fun _ k => i.length ≤ k) fun _ => True)
    (ho : x.out = .ok a) : i.length ≤ x.cost := by
  unfold Within at h
  rw [ho] at h
  simpa using h

/-- The line ends at the first CRLF that is not followed by white space. -/
theorem reach_line (rest : Bytes) (h : rest.head? ≠ some 32 ∧ rest.head? ≠ some 9) :
    ∀ line, reach (line ++ 13 :: 10 :: rest) ≤ line.length
  | [] => by
    refine Nat.le_of_eq (reach_end ?_)
    cases rest with
    | nil => exact stops_nil
    | cons x t =>
      refine stops_cons.mpr ?_
      simp only [List.head?_cons, ne_eq, Option.some.injEq] at h
      simp [isWsp, h.1, h.2]
  | [b] => by
    have := reach_line rest h []
    simp only [List.nil_append, List.length_nil] at this
    rw [List.singleton_append, reach]
    split
    · simp only [List.length_singleton]; omega
    · simp
  | [b, b'] => by
    have := reach_line rest h [b']
    simp only [List.cons_append, List.nil_append, List.length_singleton] at this
    rw [List.cons_append, List.cons_append, List.nil_append, reach]
    split
    · simp only [List.length_cons, List.length_nil]; omega
    · simp [show Spec.wsp 13 = false from by decide]
  | b :: b' :: x :: l => by
    have h1 := reach_line rest h (b' :: x :: l)
    have h2 := reach_line rest h l
    simp only [List.cons_append, List.length_cons] at *
    rw [reach]
    split
    · omega
    · split <;> omega

end EmailParser.Timed
