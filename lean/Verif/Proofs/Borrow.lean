import Verif.Spec.Borrow
import Verif.Props.Cow
import Verif.Proofs.Complete.Text
import Verif.Proofs.Complete.Address
/-
The parsers of Model/Borrow.lean agree with those of the rest of the model, and where their strings are.
-/
namespace EmailParser
open Spec

/-! ### Slices -/

theorem read_append_left {m : Memory} {a : Nat} {u v : Bytes} (h : m.read a (u ++ v).length = u ++ v) :
    m.read a u.length = u ∧ m.read (a + u.length) v.length = v := by
  rw [List.length_append, read_append] at h
  exact List.append_inj h (by simp [Memory.read])

theorem Spec.At.right {p : Place} {u v : Bytes} (h : At p (u ++ v)) : At p v := by
  obtain ⟨h1, h2⟩ := h
  have := (read_append_left h2).2
  simp only [Place.addr, List.length_append] at h1 this
  refine ⟨by omega, ?_⟩
  rw [Place.addr, show p.stop - v.length = p.stop - (u.length + v.length) + u.length by omega]
  exact this

theorem Spec.At.addr {p : Place} {u v : Bytes} (h : At p (u ++ v)) : p.addr v = p.addr (u ++ v) + u.length := by
  have := h.1
  simp only [Place.addr, List.length_append] at this ⊢
  omega

theorem Spec.At.slice {p : Place} {u v : Bytes} (h : At p (u ++ v)) : (p.slice (u ++ v) u).content p.memory = u :=
  (read_append_left h.2).1

/-! ### Building strings -/

variable {q : Bool}

/-- `s` has been built from the text `raw`, which ends at the address `pos`, and its content is `v`; `q` tells whether
backslashes escape characters. -/
inductive Built (q : Bool) (p : Place) (pos : Nat) (raw v : Bytes) : CowStr → Prop
  | empty {a} : raw = [] → v = [] → Built q p pos raw v (.borrowed a 0)
  | borrowed {a} : v ≠ [] → p.memory.read a v.length = v → a + v.length = pos → raw = raw.take (lead q raw) ++ v →
      lead q raw ≤ raw.length → Built q p pos raw v (.borrowed a v.length)
  | owned : v.length + lead q raw < raw.length → Built q p pos raw v (.owned v)

theorem Built.content {p : Place} {pos : Nat} {raw v : Bytes} {s : CowStr} (h : Built q p pos raw v s) :
    s.content p.memory = v := by
  cases h with
  | empty _ h => rw [h]; rfl
  | borrowed _ h => exact h
  | owned => rfl

theorem lead_append {u v : Bytes} (h : u ≠ []) : lead q (u ++ v) = lead q u := by
  cases u with
  | nil => exact absurd rfl h
  | cons b u =>
    unfold lead
    split <;> simp_all

theorem Built.length {p : Place} {pos : Nat} {raw v : Bytes} {s : CowStr} (h : Built q p pos raw v s) :
    v.length + lead q raw ≤ raw.length := by
  cases h with
  | empty h1 h2 => subst h1; subst h2; exact Nat.le_refl _
  | borrowed _ _ _ h4 h5 =>
    have := congrArg List.length h4
    simp only [List.length_append, List.length_take] at this
    omega
  | owned h => omega

/-- Adding what was built from the text that follows. -/
theorem Built.add {p : Place} {pos pos' : Nat} {raw v raw' v' : Bytes} {s s' : CowStr} (h : Built q p pos raw v s)
    (h' : Built q p pos' raw' v' s') (hp : pos' = pos + raw'.length) :
    Built q p pos' (raw ++ raw') (v ++ v') (addString p.memory s s') := by
  cases h with
  | empty h1 h2 =>
    subst h1; subst h2
    cases h' with
    | empty h1 h2 => subst h1; subst h2; exact .empty rfl rfl
    | @borrowed a h1 h2 h3 h4 h5 =>
      have : v'.length ≠ 0 := by simpa using h1
      unfold addString
      simp only [this, if_false, if_true]
      exact .borrowed h1 h2 h3 h4 h5
    | owned h => exact .owned h
  | @borrowed a h1 h2 h3 h4 h5 =>
    have hl : v.length ≠ 0 := by simpa using h1
    have hr : raw ≠ [] := by
      rintro rfl
      simp at h4
      exact h1 h4
    cases h' with
    | @empty a' e1 e2 =>
      subst e1; subst e2
      unfold addString
      simp only [if_true, List.append_nil]
      refine .borrowed h1 h2 ?_ h4 h5
      simpa [hp] using h3
    | @borrowed a' g1 g2 g3 g4 g5 =>
      have hl' : v'.length ≠ 0 := by simpa using g1
      unfold addString
      simp only [hl, hl', if_false]
      have e1 := congrArg List.length g4
      have e2 := congrArg List.length h4
      simp only [List.length_append, List.length_take] at e1 e2
      split
      · rename_i hadj
        have : lead q raw' = 0 := by omega
        rw [this, List.take_zero, List.nil_append] at g4
        subst g4
        rw [← List.length_append]
        refine .borrowed (by simp [h1]) ?_ (by simp; omega) ?_ ?_
        · rw [List.length_append, read_append, h2, hadj, g2]
        · rw [lead_append hr, List.take_append_of_le_length h5, ← List.append_assoc, ← h4]
        · rw [lead_append hr]
          simp
          omega
      · rename_i hadj
        have hc1 : (CowStr.borrowed a v.length).content p.memory = v := h2
        have hc2 : (CowStr.borrowed a' v'.length).content p.memory = v' := g2
        rw [hc1, hc2]
        refine .owned ?_
        rw [lead_append hr]
        simp only [List.length_append]
        omega
    | owned g =>
      have hc1 : (CowStr.borrowed a v.length).content p.memory = v := h2
      have e2 := congrArg List.length h4
      simp only [List.length_append, List.length_take] at e2
      unfold addString
      rw [hc1]
      refine .owned ?_
      rw [lead_append hr]
      simp only [List.length_append]
      omega
  | owned h =>
    have hl := h'.length
    have hc := h'.content
    show Built q p pos' (raw ++ raw') (v ++ v') (.owned (v ++ s'.content p.memory))
    rw [hc]
    refine .owned ?_
    rw [lead_append (by rintro rfl; simp at h)]
    simp only [List.length_append]
    omega

theorem Built.none {p : Place} {pos : Nat} : Built q p pos [] [] (emptyString p.empty) := .empty rfl rfl

/-- A slice of the input that does not begin with a backslash or a line break. -/
theorem built_slice {p : Place} {u r : Bytes} (h : At p (u ++ r)) (hl : lead q u = 0) :
    Built q p (p.addr r) u u (p.slice (u ++ r) u) := by
  by_cases hu : u = []
  · subst hu
    exact .empty rfl rfl
  · refine .borrowed hu h.slice ?_ (by simp [hl]) (by omega)
    exact h.addr.symm

/-! ### Agreement -/

/-- Two outcomes are the same, except that the values are related in another way. -/
def Alike {α β : Type} (x : Res α) (y : Res β) (R : Bytes → β → α → Prop) : Prop :=
  match x, y with
  | .ok (r, s), .ok (r', v) => r = r' ∧ R r v s
  | .err e, .err e' => e = e'
  | .abort k, .abort k' => k = k'
  | _, _ => False

theorem Alike.ok {α β : Type} {R : Bytes → β → α → Prop} {r : Bytes} {v : β} {s : α} (h : R r v s) :
    Alike (.ok (r, s)) (.ok (r, v)) R := ⟨rfl, h⟩

theorem Alike.same {α : Type} (x : Res α) {R : Bytes → α → α → Prop} (h : ∀ r v, x = .ok (r, v) → R r v v) :
    Alike x x R := by
  cases x with
  | ok a => exact ⟨rfl, h _ _ rfl⟩
  | err e => rfl
  | abort k => rfl

theorem Alike.bind {α β γ δ : Type} {x : Res α} {y : Res β} {R : Bytes → β → α → Prop} {R' : Bytes → δ → γ → Prop}
    {f : Bytes × α → Res γ} {g : Bytes × β → Res δ} (h : Alike x y R)
    (hf : ∀ r v s, y = .ok (r, v) → R r v s → Alike (f (r, s)) (g (r, v)) R') : Alike (x >>= f) (y >>= g) R' := by
  unfold Alike at h
  split at h
  · obtain ⟨rfl, h⟩ := h
    exact hf _ _ _ rfl h
  · exact h
  · exact h
  · exact h.elim

theorem Alike.bindRest {γ δ : Type} {x : Outcome Bytes} {R' : Bytes → δ → γ → Prop}
    {f : Bytes → Res γ} {g : Bytes → Res δ} (hf : ∀ r, x = .ok r → Alike (f r) (g r) R') :
    Alike (x >>= f) (x >>= g) R' := by
  cases x with
  | ok r => exact hf r rfl
  | err e => rfl
  | abort k => rfl

theorem Alike.mono {α β : Type} {x : Res α} {y : Res β} {R R' : Bytes → β → α → Prop} (h : Alike x y R)
    (hR : ∀ r v s, y = .ok (r, v) → R r v s → R' r v s) : Alike x y R' := by
  unfold Alike at h ⊢
  split at h
  · exact ⟨h.1, hR _ _ _ (by rw [h.1]) h.2⟩
  · exact h
  · exact h
  · exact h.elim

theorem Alike.mapRight {α β γ : Type} {x : Res α} {y : Res β} {R : Bytes → β → α → Prop} {R' : Bytes → γ → α → Prop}
    {f : β → γ} (h : Alike x y R) (hR : ∀ r v s, R r v s → R' r (f v) s) :
    Alike x (y >>= fun a => .ok (a.1, f a.2)) R' := by
  unfold Alike at h
  split at h
  · obtain ⟨rfl, h⟩ := h
    exact .ok (hR _ _ _ h)
  · exact h
  · exact h
  · exact h.elim

theorem Alike.mapResult {α β : Type} {f : α → β} {x : Res α} {y : Res β} {R : Bytes → β → α → Prop}
    (h : Alike x y R) (hR : ∀ r v s, R r v s → f s = v) : mapResult f x = y := by
  unfold Alike at h
  split at h
  · obtain ⟨rfl, h⟩ := h
    exact congrArg (fun v => Outcome.ok (Prod.mk _ v)) (hR _ _ _ h)
  · exact congrArg Outcome.err h
  · exact congrArg Outcome.abort h
  · exact h.elim

theorem Alike.left {α β : Type} {x : Res α} {y : Res β} {R : Bytes → β → α → Prop} {r : Bytes} {s : α}
    (h : Alike x y R) (hx : x = .ok (r, s)) : ∃ v, y = .ok (r, v) ∧ R r v s := by
  subst hx
  cases y with
  | ok a =>
    obtain ⟨rfl, h⟩ := h
    exact ⟨_, rfl, h⟩
  | err e => exact h.elim
  | abort k => exact h.elim

theorem Alike.of_ok {α β : Type} {x : Res α} {R : Bytes → β → α → Prop} {r : Bytes} {v : β}
    (h : Alike x (.ok (r, v)) R) : ∃ s, x = .ok (r, s) ∧ R r v s := by
  cases x with
  | ok a =>
    obtain ⟨r', s⟩ := a
    obtain ⟨rfl, h⟩ := h
    exact ⟨s, rfl, h⟩
  | err e => exact h.elim
  | abort k => exact h.elim

theorem Alike.matchParsers {α β : Type} {R : Bytes → β → α → Prop} {i : Bytes} {x : Bytes → Res α} {y : Bytes → Res β}
    {xs : List (Bytes → Res α)} {ys : List (Bytes → Res β)} (h : Alike (x i) (y i) R)
    (hs : Alike (matchParsers i xs) (matchParsers i ys) R) :
    Alike (matchParsers i (x :: xs)) (matchParsers i (y :: ys)) R := by
  unfold EmailParser.matchParsers
  unfold Alike at h
  split at h
  · rename_i h1 h2
    rw [h1, h2]
    exact h
  · rename_i h1 h2
    rw [h1, h2]
    exact hs
  · rename_i h1 h2
    rw [h1, h2]
    exact h
  · exact h.elim

theorem Alike.matchNil {α β : Type} {R : Bytes → β → α → Prop} {i : Bytes} :
    Alike (EmailParser.matchParsers (α := α) i []) (EmailParser.matchParsers (α := β) i []) R := rfl

/-! ### White space and quoted strings -/

variable {c : Cfg} {p : Place}

/-- Built from the text that was read. -/
def BuiltFrom (q : Bool) (p : Place) (i r v : Bytes) (s : CowStr) : Prop := ∃ w, i = w ++ r ∧ Built q p (p.addr r) w v s

theorem lead_class {P : UInt8 → Bool} (h1 : q = true → P 92 = false) (h2 : P 13 = false) {u : Bytes} (h : ∀ b ∈ u, P b = true) :
    lead q u = 0 := by
  unfold lead
  split
  · split
    · rename_i hq
      have := h1 hq
      rw [h 92 (by simp)] at this
      cases this
    · rfl
  · rw [h 13 (by simp)] at h2
    cases h2
  · rfl

theorem run_agree {P : UInt8 → Bool} (h1 : q = true → P 92 = false) (h2 : P 13 = false) {i : Bytes} (h : At p i) :
    Alike (takeWhile1 i P >>= fun x => .ok (x.1, p.slice i x.2)) (takeWhile1 i P)
      fun r v s => v ≠ [] ∧ (∀ b ∈ v, P b = true) ∧ i = v ++ r ∧ Built q p (p.addr r) v v s := by
  rcases takeWhile1_cases P i with ⟨-, e, h⟩ | ⟨w, r, rfl, hne, hw, -, h'⟩
  · rw [h]
    rfl
  · rw [h']
    exact .ok ⟨hne, hw, rfl, built_slice h (lead_class h1 h2 hw)⟩

theorem fwsStart {i r : Bytes} {b : Option (Bytes × Unit)}
    (h : optional i (fun input => pair input (fun input => takeWhile input isWsp) (fun input => tag input (b! "\r\n")
      "TAG ERROR: A folding whitespace must end with a `\\r\\n` sequence.")) = .ok (r, b)) :
    (b = none ∧ r = i) ∨ ∃ w, b = some (w, ()) ∧ i = w ++ (CRLF ++ r) ∧ ∀ x ∈ w, wsp x = true := by
  unfold optional at h
  split at h
  · rename_i hx
    cases h
    obtain ⟨⟨r1, w⟩, h1, hx⟩ := bind_eq_ok.1 hx
    obtain ⟨⟨r2, u⟩, h2, hx⟩ := bind_eq_ok.1 hx
    cases hx
    have h1 : takeWhile i isWsp = .ok (r1, w) := h1
    rw [takeWhile_eq, Outcome.ok.injEq, Prod.mk.injEq] at h1
    have h2 := tag_ok_iff.mp h2
    refine .inr ⟨w, rfl, ?_, ?_⟩
    · rw [← h2, ← h1.1, ← h1.2]
      exact List.takeWhile_append_dropWhile.symm
    · rw [← h1.2, ← isWsp_eq]
      exact fun x hx => mem_takeWhile hx
  · cases h
    exact .inl ⟨rfl, rfl⟩
  · cases h

theorem wsp_class : isWsp 92 = false ∧ isWsp 13 = false := by decide

theorem cowFws_agree {i : Bytes} (h : At p i) : Alike (cowFws p i) (fws i) (BuiltFrom q p i) := by
  unfold cowFws fws
  refine (Alike.same (R := fun r b b' => b' = b ∧ ((b = none ∧ r = i) ∨ ∃ w, b = some (w, ()) ∧ i = w ++ (CRLF ++ r) ∧
    ∀ x ∈ w, wsp x = true)) _ fun r b hb => ⟨rfl, fwsStart hb⟩).bind ?_
  rintro r b b' - ⟨rfl, ⟨rfl, rfl⟩ | ⟨w, rfl, rfl, hw⟩⟩
  · have := (run_agree (p := p) (fun _ => wsp_class.1) wsp_class.2 h).mono (R' := BuiltFrom q p r) fun r' v s _ hx =>
      ⟨v, hx.2.2.1, hx.2.2.2⟩
    simp only
    cases hx : takeWhile1 r isWsp with
    | ok a =>
      rw [hx] at this
      exact this
    | err e => rfl
    | abort k => rfl
  · have h1 := h.right
    have h2 := h1.right
    have := run_agree (q := q) (p := p) (fun _ => wsp_class.1) wsp_class.2 h2
    simp only
    cases hx : takeWhile1 r isWsp with
    | ok a =>
      rw [hx] at this
      obtain ⟨-, hne, ha, hr, hb⟩ := this
      subst hr
      refine .ok ⟨w ++ (CRLF ++ a.2), by simp, ?_⟩
      rw [C49_add_str]
      have e1 : lead q w = 0 := lead_class (P := wsp) (fun _ => by decide) (by decide) hw
      refine (built_slice h e1).add (raw' := CRLF ++ a.2) ?_ ?_
      · refine .borrowed hne h2.slice h2.addr.symm rfl ?_
        simp [lead]
      · rw [h2.addr, h1.addr, List.length_append]
        omega
    | err e => rfl
    | abort k => rfl

theorem BuiltFrom.nil {i : Bytes} : BuiltFrom q p i i [] (emptyString p.empty) := ⟨[], rfl, .none⟩

theorem cowFwsOrEmpty_agree {i : Bytes} (h : At p i) : Alike (cowFwsOrEmpty p i) (fwsOrEmpty i) (BuiltFrom q p i) := by
  have := cowFws_agree (q := q) h
  unfold cowFwsOrEmpty fwsOrEmpty
  unfold Alike at this
  split at this
  · rename_i h1 h2
    rw [h1, h2]
    exact this
  · rename_i h1 h2
    rw [h1, h2]
    exact .ok .nil
  · rename_i h1 h2
    rw [h1, h2]
    exact this
  · exact this.elim

theorem cowQuotedPair_agree {i : Bytes} (h : At p i) : Alike (cowQuotedPair p i) (quotedPair i) (BuiltFrom true p i) := by
  unfold cowQuotedPair quotedPair
  refine (Alike.same (R := fun r _ _ => i = b! "\\" ++ r) _ fun r b hb => tag_ok_iff.mp hb).bind ?_
  rintro r ⟨⟩ ⟨⟩ - rfl
  cases r with
  | nil => rfl
  | cons b r =>
    dsimp only
    split
    · have e1 := getUncheckedFrom_append [b] r
      have e2 := getUncheckedTo_append [b] r
      simp only [List.cons_append, List.nil_append, List.length_cons, List.length_nil, Nat.zero_add] at e1 e2
      rw [e1, e2]
      refine .ok ⟨[92, b], by simp, ?_⟩
      have h1 := h.right
      have h2 : At p ([b] ++ r) := h1
      exact .borrowed (by simp) h2.slice h2.addr.symm rfl (by simp [lead])
    · rfl

theorem BuiltFrom.trans {i r r' v v' : Bytes} {s s' : CowStr} (hi : At p i) (h : BuiltFrom q p i r v s)
    (h' : BuiltFrom q p r r' v' s') : BuiltFrom q p i r' (v ++ v') (addString p.memory s s') := by
  obtain ⟨w, rfl, h⟩ := h
  obtain ⟨w', rfl, h'⟩ := h'
  refine ⟨w ++ w', by simp, h.add h' ?_⟩
  exact hi.right.addr

theorem BuiltFrom.at {i r v : Bytes} {s : CowStr} (hi : At p i) (h : BuiltFrom q p i r v s) : At p r := by
  obtain ⟨w, rfl, -⟩ := h
  exact hi.right

/-- What a loop adds to `out`, which was built from the text `u` before `i`. -/
def BuiltOnto (q : Bool) (p : Place) (u vout i r v : Bytes) (s : CowStr) : Prop :=
  ∃ w, i = w ++ r ∧ Built q p (p.addr r) (u ++ w) (vout ++ v) s

theorem BuiltFrom.step {i r v u vout : Bytes} {s out : CowStr} (hi : At p i) (h : BuiltFrom q p i r v s)
    (ho : Built q p (p.addr i) u vout out) :
    ∃ w, i = w ++ r ∧ Built q p (p.addr r) (u ++ w) (vout ++ v) (addString p.memory out s) := by
  obtain ⟨w, rfl, h⟩ := h
  exact ⟨w, rfl, ho.add h hi.addr⟩

theorem BuiltOnto.step {i j r v v' u vout w : Bytes} {s : CowStr} (hw : i = w ++ j)
    (h : BuiltOnto q p (u ++ w) (vout ++ v) j r v' s) : BuiltOnto q p u vout i r (v ++ v') s := by
  obtain ⟨w', rfl, h⟩ := h
  exact ⟨w ++ w', by simp [hw], by simpa using h⟩

theorem run_add {P : UInt8 → Bool} (h1 : q = true → P 92 = false) (h2 : P 13 = false) {i r v : Bytes} (h : At p i)
    (hx : takeWhile1 i P = .ok (r, v)) : BuiltFrom q p i r v (p.slice i v) := by
  have := run_agree (q := q) h1 h2 h
  rw [hx] at this
  exact ⟨v, this.2.2.2.1, this.2.2.2.2⟩

theorem qtext_class : isQtext 92 = false ∧ isQtext 13 = false := by decide

theorem cowAddFws_agree {i u vout : Bytes} {out : CowStr} (hi : At p i) (ho : Built q p (p.addr i) u vout out) :
    Alike (cowAddFws p i out) (fwsOrEmpty i) (BuiltOnto q p u vout i) := by
  have := cowFws_agree (q := q) hi
  unfold fwsOrEmpty cowAddFws
  unfold Alike at this
  split at this
  · rename_i h1 h2
    rw [h1, h2]
    refine ⟨this.1, ?_⟩
    exact this.2.step hi ho
  · rename_i h1 h2
    rw [h1, h2]
    exact .ok ⟨[], rfl, by simpa using ho⟩
  · rename_i h1 h2
    rw [h1, h2]
    exact this
  · exact this.elim

theorem cowQuotedStringLoop_agree : ∀ fuel (i : Bytes) (out : CowStr) (u vout : Bytes), At p i →
    Built true p (p.addr i) u vout out →
    Alike (cowQuotedStringLoop p fuel i out) (quotedStringLoop fuel i) (BuiltOnto true p u vout i)
  | 0, _, _, _, _, _, _ => rfl
  | fuel + 1, i, out, u, vout, hi, ho => by
    unfold cowQuotedStringLoop quotedStringLoop
    refine Alike.bind (R := BuiltFrom true p i) ?_ ?_
    · exact (cowAddFws_agree hi Built.none).mono fun _ _ _ _ h => h
    · intro j white s _ hs
      have hj := hs.at hi
      have next : ∀ r str t, BuiltFrom true p j r str t → Alike
          (cowQuotedStringLoop p fuel r (addString p.memory out (addString p.memory s t)))
          (do
            let (input, output) ← quotedStringLoop fuel r
            .ok (input, white ++ str ++ output)) (BuiltOnto true p u vout i) := by
        intro r str t ht
        obtain ⟨w, hw, hb⟩ := (hs.trans hi ht).step hi ho
        have ih := cowQuotedStringLoop_agree fuel r _ _ _ (ht.at hj) hb
        exact ih.mapRight fun _ _ _ h => h.step hw
      dsimp only
      cases hx : takeWhile1 j isQtext with
      | ok a =>
        dsimp only
        rw [C49_add_str]
        exact next _ _ _ (run_add (fun _ => qtext_class.1) qtext_class.2 hj hx)
      | abort k => rfl
      | err e =>
        dsimp only
        have := cowQuotedPair_agree hj
        unfold Alike at this
        split at this
        · rename_i h1 h2
          rw [h1, h2]
          obtain ⟨rfl, this⟩ := this
          exact next _ _ _ this
        · rename_i h1 h2
          rw [h1, h2]
          exact .ok ⟨[], rfl, by simpa using ho⟩
        · rename_i h1 h2
          rw [h1, h2]
          exact this
        · exact this.elim

/-- A text without the parts around it. -/
theorem cowQuotedString_agree {i : Bytes} (hi : At p i) : Alike (cowQuotedString c p i) (quotedString c i)
    fun r v s => ∃ pre raw post, i = pre ++ (b! "\"" ++ (raw ++ (b! "\"" ++ (post ++ r)))) ∧ OptCfws pre () ∧ OptCfws post () ∧
      QuotedText raw v ∧ Built true p (p.addr (b! "\"" ++ (post ++ r))) raw v s := by
  unfold cowQuotedString quotedString
  refine .bindRest fun i₁ h1 => ?_
  have := skipCfws_sat (c := c) i
  rw [h1] at this
  obtain ⟨pre, rfl, hpre⟩ := this
  have hi := hi.right
  by_cases h2 : startsWith i₁ (b! "\"") = true
  · rw [if_pos h2, if_pos h2]
    obtain ⟨i₂, rfl⟩ := startsWith_iff.mp h2
    have e : sliceFrom (b! "\"" ++ i₂) 1 = .ok i₂ := by simp [sliceFrom]
    rw [e, ok_bind, ok_bind]
    have hi := hi.right
    refine (cowQuotedStringLoop_agree _ i₂ _ [] [] hi .none).bind fun i₃ v s h3 hs => ?_
    have := quotedStringLoop_psat (A := .none) (i₂.length + 1) i₂ (by omega)
    rw [h3] at this
    obtain ⟨w₁, hw₁, vs, rfl, hq⟩ := this
    obtain ⟨w, rfl, hs⟩ := hs
    obtain rfl := List.append_cancel_right hw₁
    have hi := hi.right
    refine (cowAddFws_agree hi hs).bind fun i₄ v' s' h4 hs' => ?_
    have := fwsOrEmpty_parses (A := .none) i₃
    rw [h4] at this
    obtain ⟨w₂, hw₂, hf⟩ := this
    obtain ⟨w', rfl, hs'⟩ := hs'
    obtain rfl := List.append_cancel_right hw₂
    by_cases h5 : startsWith i₄ (b! "\"") = true
    · simp only [h5, if_true]
      obtain ⟨i₅, rfl⟩ := startsWith_iff.mp h5
      have e : sliceFrom (b! "\"" ++ i₅) 1 = .ok i₅ := by simp [sliceFrom]
      rw [e, ok_bind, ok_bind]
      refine .bindRest fun i₆ h6 => ?_
      have := skipCfws_sat (c := c) i₅
      rw [h6] at this
      obtain ⟨post, rfl, hpost⟩ := this
      refine .ok ⟨pre, w ++ w', post, by simp, hpre, hpost, ?_, hs'⟩
      exact ⟨w, w', vs, rfl, hq, w', [], v', by simp, hf, rfl, rfl⟩
    · simp only [h5]
      rfl
  · rw [if_neg h2, if_neg h2]
    rfl

/-! ### Atoms -/

theorem Built.slice {u r : Bytes} {s : CowStr} (hu : At p (u ++ r)) (hne : u ≠ []) (h : Built q p (p.addr r) u u s) :
    s = p.slice (u ++ r) u := by
  have ha := hu.addr
  cases h with
  | empty h => exact absurd h hne
  | @borrowed a _ _ h => rw [Place.slice, show p.addr (u ++ r) = a by omega]
  | owned h => omega

theorem atext_class : isAtext 92 = false ∧ isAtext 13 = false := by decide
theorem dtext_class : isDtext 92 = false ∧ isDtext 13 = false := by decide
theorem vchar_class : isVchar 13 = false := by decide

/-- The string is the text `v` of the input, between gaps. -/
def SliceIn (p : Place) (i r v : Bytes) (s : CowStr) : Prop :=
  ∃ pre post, i = pre ++ (v ++ (post ++ r)) ∧ OptCfws pre () ∧ OptCfws post () ∧ v ≠ [] ∧ s = p.slice (v ++ (post ++ r)) v

theorem cowAtom_agree {i : Bytes} (hi : At p i) : Alike (cowAtom c p i) (atom c i) (SliceIn p i) := by
  unfold cowAtom atom
  refine .bindRest fun i₁ h1 => ?_
  have := skipCfws_sat (c := c) i
  rw [h1] at this
  obtain ⟨pre, rfl, hpre⟩ := this
  refine (Alike.same (R := fun r b b' => b' = b ∧ b ≠ [] ∧ i₁ = b ++ r) _ fun r b hb => ?_).bind ?_
  · rcases takeWhile1_cases isAtext i₁ with ⟨-, e, h⟩ | ⟨w, r', rfl, hne, hw, -, h'⟩
    · rw [h] at hb
      cases hb
    · rw [h'] at hb
      cases hb
      exact ⟨rfl, hne, rfl⟩
  rintro i₂ v _ - ⟨rfl, hne, rfl⟩
  refine .bindRest fun i₃ h3 => ?_
  have := skipCfws_sat (c := c) i₂
  rw [h3] at this
  obtain ⟨post, rfl, hpost⟩ := this
  exact .ok ⟨pre, post, rfl, hpre, hpost, hne, rfl⟩

theorem takeWhile_split {P : UInt8 → Bool} {i r v : Bytes} (h : takeWhile i P = .ok (r, v)) :
    i = v ++ r ∧ ∀ b ∈ v, P b = true := by
  rw [takeWhile_eq, Outcome.ok.injEq, Prod.mk.injEq] at h
  rw [← h.1, ← h.2]
  exact ⟨List.takeWhile_append_dropWhile.symm, fun x hx => mem_takeWhile hx⟩

theorem takeWhile1_split {P : UInt8 → Bool} {i r v : Bytes} (h : takeWhile1 i P = .ok (r, v)) :
    i = v ++ r ∧ v ≠ [] ∧ ∀ b ∈ v, P b = true := by
  rcases takeWhile1_cases P i with ⟨-, e, h'⟩ | ⟨w, r', rfl, hne, hw, -, h'⟩
  · rw [h'] at h
    cases h
  · rw [h'] at h
    cases h
    exact ⟨rfl, hne, hw⟩

theorem cowDotAtomTextLoop_agree : ∀ fuel (i : Bytes) (out : CowStr) (u : Bytes), At p i →
    Built q p (p.addr i) u u out →
    Alike (cowDotAtomTextLoop c p fuel i out) (dotAtomTextLoop c fuel i) fun r v s =>
      i = v ++ r ∧ Built q p (p.addr r) (u ++ v) (u ++ v) s
  | 0, _, _, _, _, _ => rfl
  | fuel + 1, i, out, u, hi, ho => by
    unfold cowDotAtomTextLoop dotAtomTextLoop
    by_cases h : startsWith i (b! ".") = true
    · rw [if_pos h, if_pos h]
      obtain ⟨j, rfl⟩ := startsWith_iff.mp h
      have e : sliceFrom (b! "." ++ j) 1 = .ok j := by simp [sliceFrom]
      have e' : sliceTo (b! "." ++ j) 1 = .ok (b! ".") := by simp [sliceTo]
      rw [e, ok_bind, ok_bind]
      have hj := hi.right
      have next : ∀ r v, j = v ++ r → (∀ b ∈ v, isAtext b = true) → Alike
          (cowDotAtomTextLoop c p fuel r (addStr p.memory
            (addString p.memory out (p.slice (b! "." ++ j) (b! "."))) (p.addr j) v.length))
          (do
            let (input, output) ← dotAtomTextLoop c fuel r
            .ok (input, b! "." ++ v ++ output))
          fun r v s => b! "." ++ j = v ++ r ∧ Built q p (p.addr r) (u ++ v) (u ++ v) s := by
        rintro r v rfl hv
        have h1 := ho.add (built_slice (u := b! ".") hi rfl) hi.addr
        have h2 := h1.add (built_slice hj (lead_class (fun _ => atext_class.1) atext_class.2 hv)) hj.addr
        rw [C49_add_str]
        have ih := cowDotAtomTextLoop_agree fuel r _ _ hj.right h2
        refine ih.mapRight (f := fun output => b! "." ++ v ++ output) fun r' v' s h' => ?_
        obtain ⟨rfl, h'⟩ := h'
        exact ⟨by simp, by simpa using h'⟩
      have key : ∀ x : Res Bytes, (∀ r v, x = .ok (r, v) → j = v ++ r ∧ ∀ b ∈ v, isAtext b = true) → Alike
          (match x with
            | .ok (newInput, atom) => do
              let dot ← sliceTo (b! "." ++ j) 1
              let output := addString p.memory out (p.slice (b! "." ++ j) dot)
              cowDotAtomTextLoop c p fuel newInput (addStr p.memory output (p.addr j) atom.length)
            | .err _ => .ok (b! "." ++ j, out)
            | .abort k => .abort k)
          (match x with
            | .ok (newInput, atom) => do
              let dot ← sliceTo (b! "." ++ j) 1
              let (input, output) ← dotAtomTextLoop c fuel newInput
              .ok (input, dot ++ atom ++ output)
            | .err _ => .ok (b! "." ++ j, [])
            | .abort k => .abort k)
          fun r v s => b! "." ++ j = v ++ r ∧ Built q p (p.addr r) (u ++ v) (u ++ v) s := by
        intro x hx
        rw [e']
        cases x with
        | ok a => exact next _ _ (hx _ _ rfl).1 (hx _ _ rfl).2
        | err e => exact .ok ⟨rfl, by simpa using ho⟩
        | abort k => rfl
      apply key
      intro r v h
      split at h
      · exact takeWhile_split h
      · exact ⟨(takeWhile1_split h).1, (takeWhile1_split h).2.2⟩
    · rw [if_neg h, if_neg h]
      exact .ok ⟨rfl, by simpa using ho⟩

theorem cowDotAtomText_agree {i : Bytes} (hi : At p i) :
    Alike (cowDotAtomText c p i) (dotAtomText c i) fun r v s => i = v ++ r ∧ v ≠ [] ∧ s = p.slice i v := by
  unfold cowDotAtomText dotAtomText
  refine (Alike.same (R := fun r b b' => b' = b ∧ b ≠ [] ∧ i = b ++ r ∧ ∀ x ∈ b, isAtext x = true) _
    fun r b hb => ?_).bind ?_
  · have := takeWhile1_split hb
    exact ⟨rfl, this.2.1, this.1, this.2.2⟩
  rintro i₁ _ v - ⟨rfl, hne, rfl, hv⟩
  have := cowDotAtomTextLoop_agree (q := true) (c := c) (i₁.length + 1) i₁ _ v hi.right
    (built_slice hi (lead_class (fun _ => atext_class.1) atext_class.2 hv))
  refine this.mapRight fun r v' s h => ?_
  obtain ⟨rfl, h⟩ := h
  refine ⟨by simp, by simp [hne], ?_⟩
  rw [← List.append_assoc] at hi ⊢
  exact h.slice hi (by simp [hne])

theorem cowDotAtom_agree {i : Bytes} (hi : At p i) : Alike (cowDotAtom c p i) (dotAtom c i) (SliceIn p i) := by
  unfold cowDotAtom dotAtom
  refine .bindRest fun i₁ h1 => ?_
  have := skipCfws_sat (c := c) i
  rw [h1] at this
  obtain ⟨pre, rfl, hpre⟩ := this
  refine (cowDotAtomText_agree hi.right).bind ?_
  rintro i₂ v s - ⟨rfl, hne, rfl⟩
  refine .bindRest fun i₃ h3 => ?_
  have := skipCfws_sat (c := c) i₂
  rw [h3] at this
  obtain ⟨post, rfl, hpost⟩ := this
  exact .ok ⟨pre, post, rfl, hpre, hpost, hne, rfl⟩

theorem cowNoFoldLitteral_agree {i : Bytes} : Alike (cowNoFoldLitteral p i) (noFoldLitteral i)
    fun r v s => i = b! "[" ++ (v ++ (b! "]" ++ r)) ∧ s = p.slice (v ++ (b! "]" ++ r)) v := by
  unfold cowNoFoldLitteral noFoldLitteral
  refine (Alike.same (R := fun r _ _ => i = b! "[" ++ r) _ fun r b hb => tag_ok_iff.mp hb).bind ?_
  rintro i₁ ⟨⟩ ⟨⟩ - rfl
  refine (Alike.same (R := fun r b b' => b' = b ∧ i₁ = b ++ r) _ fun r b hb => ⟨rfl, (takeWhile_split hb).1⟩).bind ?_
  rintro i₂ v _ - ⟨rfl, rfl⟩
  refine (Alike.same (R := fun r _ _ => i₂ = b! "]" ++ r) _ fun r b hb => tag_ok_iff.mp hb).bind ?_
  rintro i₃ ⟨⟩ ⟨⟩ - rfl
  exact .ok ⟨rfl, rfl⟩

theorem cowMessageId_agree {i : Bytes} (hi : At p i) : Alike (cowMessageId c p i) (messageId c i) fun r v s =>
    ∃ pre mid, i = pre ++ (v.1 ++ (b! "@" ++ mid)) ∧ s.1 = p.slice (v.1 ++ (b! "@" ++ mid)) v.1 ∧
      ∃ pre' post, mid = pre' ++ (v.2 ++ (post ++ r)) ∧ (pre' = [] ∨ pre' = b! "[") ∧
        s.2 = p.slice (v.2 ++ (post ++ r)) v.2 := by
  unfold cowMessageId messageId
  refine .bindRest fun i₁ h1 => ?_
  have := skipCfws_sat (c := c) i
  rw [h1] at this
  obtain ⟨pre, rfl, hpre⟩ := this
  refine (Alike.same (R := fun r _ _ => i₁ = b! "<" ++ r) _ fun r b hb => tag_ok_iff.mp hb).bind ?_
  rintro i₂ ⟨⟩ ⟨⟩ - rfl
  have hi := hi.right.right
  refine (cowDotAtomText_agree hi).bind ?_
  rintro i₃ v s - ⟨rfl, -, rfl⟩
  have hi := hi.right
  refine (Alike.same (R := fun r _ _ => i₃ = b! "@" ++ r) _ fun r b hb => tag_ok_iff.mp hb).bind ?_
  rintro i₄ ⟨⟩ ⟨⟩ - rfl
  have hi := hi.right
  have : Alike (matchParsers i₄ [cowDotAtomText c p, cowNoFoldLitteral p]) (matchParsers i₄ [dotAtomText c, noFoldLitteral])
      fun r v s => ∃ pre' post, i₄ = pre' ++ (v ++ (post ++ r)) ∧ (pre' = [] ∨ pre' = b! "[") ∧
        s = p.slice (v ++ (post ++ r)) v := by
    refine .matchParsers ((cowDotAtomText_agree hi).mono ?_) (.matchParsers (cowNoFoldLitteral_agree.mono ?_) .matchNil)
    · rintro r v' s' - ⟨rfl, -, rfl⟩
      exact ⟨[], [], rfl, .inl rfl, rfl⟩
    · rintro r v' s' - ⟨rfl, rfl⟩
      exact ⟨b! "[", b! "]", rfl, .inr rfl, rfl⟩
  · refine this.bind ?_
    rintro i₅ v' s' - ⟨pre', post, rfl, hp, rfl⟩
    refine (Alike.same (R := fun r _ _ => i₅ = b! ">" ++ r) _ fun r b hb => tag_ok_iff.mp hb).bind ?_
    rintro i₆ ⟨⟩ ⟨⟩ - rfl
    refine .bindRest fun i₇ h7 => ?_
    have := skipCfws_sat (c := c) i₆
    rw [h7] at this
    obtain ⟨post', rfl, -⟩ := this
    refine .ok ⟨pre ++ b! "<", _, by simp, rfl, pre', post ++ (b! ">" ++ post'), by simp, hp, ?_⟩
    simp

/-! ### Text -/

/-- Grammar of a piece of text. -/
def TextPiece : Gram Bytes := do
  let white ← OptFws
  let v ← Gram.chars1 vchar
  pure (white ++ v)

def cowTextPiece (p : Place) (i : Bytes) : Res CowStr :=
  cowCollectPair p i (cowFwsOrEmpty p) fun i => do
    let (input, value) ← takeWhile1 i isVchar
    .ok (input, p.slice i value)

def textPiece (i : Bytes) : Res Bytes :=
  collectPair i fwsOrEmpty fun i => do
    let (input, value) ← takeWhile1 i isVchar
    .ok (input, value)

theorem cowTextPiece_agree {i : Bytes} (hi : At p i) : Alike (cowTextPiece p i) (textPiece i) (BuiltFrom false p i) := by
  unfold cowTextPiece textPiece cowCollectPair collectPair
  refine (cowFwsOrEmpty_agree (q := false) hi).bind fun j white s _ hs => ?_
  have hj := hs.at hi
  dsimp only
  cases hx : takeWhile1 j isVchar with
  | ok a => exact .ok (hs.trans hi (run_add (by simp) vchar_class hj hx))
  | err e => rfl
  | abort k => rfl

theorem textPiece_progress : Progress TextPiece := progress_bind_right fun _ => progress_bind_left progress_chars1

theorem textPiece_parses {A : Aborts} : Parses A TextPiece textPiece := by
  intro i
  unfold textPiece
  rw [isVchar_eq]
  refine collectPair_parses (A := A) fwsOrEmpty_parses (H := Gram.chars1 Spec.vchar) ?_ i
  intro i
  refine (PSat.bind (takeWhile1_parses Spec.vchar i) (F := fun v => pure v)
    fun r v w _ _ => .pure).imp ?_
  intro w v h
  obtain ⟨a, h', rfl⟩ := gram_bind_pure.mp h
  exact h'

theorem cowCollectManyLoop_agree {x : Bytes → Res CowStr} {y : Bytes → Res Bytes}
    (h : ∀ i, At p i → Alike (x i) (y i) (BuiltFrom q p i)) : ∀ fuel (i : Bytes) (out : CowStr) (u vout : Bytes), At p i →
    Built q p (p.addr i) u vout out →
    Alike (cowCollectManyLoop p x fuel i out) (collectManyLoop y fuel i) (BuiltOnto q p u vout i)
  | 0, _, _, _, _, _, _ => rfl
  | fuel + 1, i, out, u, vout, hi, ho => by
    unfold cowCollectManyLoop collectManyLoop
    have := h i hi
    unfold Alike at this
    split at this
    · rename_i h1 h2
      rw [h1, h2]
      obtain ⟨rfl, hs⟩ := this
      obtain ⟨w, hw, hb⟩ := hs.step hi ho
      have ih := cowCollectManyLoop_agree h fuel _ _ _ _ (hs.at hi) hb
      exact ih.mapRight fun _ _ _ h => h.step hw
    · rename_i h1 h2
      rw [h1, h2]
      exact .ok ⟨[], rfl, by simpa using ho⟩
    · rename_i h1 h2
      rw [h1, h2]
      exact this
    · exact this.elim

/-- The string was built from the text before white space. -/
def TextIn (p : Place) (i r v : Bytes) (s : CowStr) : Prop :=
  ∃ raw white, i = raw ++ (white ++ r) ∧ PlainText raw v ∧ (∀ b ∈ white, wsp b = true) ∧
    Built false p (p.addr (white ++ r)) raw v s

theorem cowUnstructured_agree {i : Bytes} (hi : At p i) : Alike (cowUnstructured p i) (unstructured i) (TextIn p i) := by
  show Alike ((cowCollectMany p i (cowTextPiece p)) >>= _) ((collectMany i textPiece) >>= _) _
  unfold cowCollectMany collectMany
  refine (cowCollectManyLoop_agree (fun i => cowTextPiece_agree) _ i _ [] [] hi .none).bind fun j v s h1 hs => ?_
  have := collectManyLoop_psat (A := .none) textPiece_progress textPiece_parses (i.length + 1) i (by omega)
  rw [h1] at this
  obtain ⟨raw, hraw, vs, rfl, hvs⟩ := this
  obtain ⟨w, rfl, hs⟩ := hs
  obtain rfl := List.append_cancel_right hraw
  dsimp only
  have := dropWsp_parses (A := .none) j
  cases hx : dropWsp j with
  | err e => rfl
  | abort k => rfl
  | ok a =>
    rw [hx] at this
    obtain ⟨white, rfl, x, hwhite⟩ := this
    exact .ok ⟨w, white, rfl, ⟨w, [], vs, by simp, hvs, rfl, rfl⟩, hwhite.2, hs⟩

/-! ### Strings within the input -/

/-- The content of `s` is `v`, and if borrowed then from the input after the address `lo`. -/
def Inside (p : Place) (lo : Nat) (v : Bytes) (s : CowStr) : Prop := s.content p.memory = v ∧ Within lo p.stop s

theorem Inside.add {lo : Nat} {v v' : Bytes} {s s' : CowStr} (h : Inside p lo v s) (h' : Inside p lo v' s') :
    Inside p lo (v ++ v') (addString p.memory s s') :=
  ⟨by rw [C49_content, h.1, h'.1], C49_in_bounds _ _ _ _ _ h.2 h'.2⟩

theorem Inside.owned {lo : Nat} {v : Bytes} : Inside p lo v (.owned v) := ⟨rfl, trivial⟩

theorem Inside.empty {lo : Nat} : Inside p lo [] (emptyString p.empty) := ⟨rfl, .inl rfl⟩

theorem Inside.le {lo lo' : Nat} {v : Bytes} {s : CowStr} (h : Inside p lo v s) (hl : lo' ≤ lo) : Inside p lo' v s := by
  refine ⟨h.1, ?_⟩
  cases s with
  | owned => trivial
  | borrowed a l =>
    rcases h.2 with h | h
    · exact .inl h
    · exact .inr ⟨by omega, h.2⟩

theorem Built.inside {raw post v : Bytes} {s : CowStr} (hi : At p (raw ++ post)) (h : Built q p (p.addr post) raw v s) :
    Inside p (p.addr (raw ++ post)) v s := by
  refine ⟨h.content, ?_⟩
  have ha := hi.addr
  have hl := h.length
  have : p.addr post ≤ p.stop := by simp [Place.addr]
  cases h with
  | empty => exact .inl rfl
  | borrowed => exact .inr ⟨by omega, by omega⟩
  | owned => trivial

theorem Spec.At.le {u v : Bytes} (h : At p (u ++ v)) : p.addr (u ++ v) ≤ p.addr v := by
  rw [h.addr]
  omega

theorem BuiltFrom.inside {i r v : Bytes} {s : CowStr} (hi : At p i) (h : BuiltFrom q p i r v s) :
    Inside p (p.addr i) v s := by
  obtain ⟨w, rfl, h⟩ := h
  exact h.inside hi

theorem slice_inside {u v r : Bytes} (h : At p (u ++ (v ++ r))) :
    Inside p (p.addr (u ++ (v ++ r))) v (p.slice (v ++ r) v) := by
  refine ⟨h.right.slice, .inr ⟨h.le, ?_⟩⟩
  have := h.right.addr
  have : p.addr r ≤ p.stop := by simp [Place.addr]
  omega

theorem SliceIn.inside {i r v : Bytes} {s : CowStr} (hi : At p i) (h : SliceIn p i r v s) : Inside p (p.addr i) v s := by
  obtain ⟨pre, post, rfl, -, -, -, rfl⟩ := h
  exact slice_inside hi

theorem TextIn.inside {i r v : Bytes} {s : CowStr} (hi : At p i) (h : TextIn p i r v s) : Inside p (p.addr i) v s := by
  obtain ⟨raw, white, rfl, -, -, h⟩ := h
  exact h.inside hi

/-- Agreement, and the strings are in the input. -/
abbrev InsideA (p : Place) (i : Bytes) (x : Res CowStr) (y : Res Bytes) : Prop :=
  Alike x y fun _ v s => Inside p (p.addr i) v s

theorem cowQuotedString_inside {i : Bytes} (hi : At p i) : InsideA p i (cowQuotedString c p i) (quotedString c i) := by
  refine (cowQuotedString_agree hi).mono ?_
  rintro r v s - ⟨pre, raw, post, rfl, -, -, -, h⟩
  exact (h.inside hi.right.right).le (Nat.le_trans hi.le hi.right.le)

theorem cowWord_inside {i : Bytes} (hi : At p i) : InsideA p i (cowWord c p i) (word c i) :=
  .matchParsers ((cowAtom_agree hi).mono fun _ _ _ _ h => h.inside hi)
    (.matchParsers (cowQuotedString_inside hi) .matchNil)

theorem cowEncodedWord_inside {i j : Bytes} : InsideA p i (cowEncodedWord c j) (encodedWord c j) := by
  unfold cowEncodedWord
  cases encodedWord c j with
  | ok a => exact .ok .owned
  | err e => rfl
  | abort k => rfl

theorem cowPhraseWord_inside {i : Bytes} (hi : At p i) : InsideA p i (cowPhraseWord c p i) (phraseWord c i) := by
  unfold cowPhraseWord phraseWord
  split
  · refine .matchParsers ?_ (.matchParsers (cowWord_inside hi) .matchNil)
    exact (Alike.same (R := fun _ _ _ => True) _ fun _ _ _ => trivial).bind fun r _ _ _ _ => cowEncodedWord_inside
  · exact cowWord_inside hi

theorem cowMany_inside {lo : Nat} {x : Bytes → Res CowStr} {y : Bytes → Res Bytes}
    (hs : ∀ i r v, y i = .ok (r, v) → ∃ w, i = w ++ r) (h : ∀ i, At p i → InsideA p i (x i) (y i)) :
    ∀ fuel i, At p i → lo ≤ p.addr i → Alike (manyLoop x fuel i) (manyLoop y fuel i)
      fun _ vs ss => ss.map (·.content p.memory) = vs ∧ ∀ s ∈ ss, Within lo p.stop s
  | 0, _, _, _ => rfl
  | fuel + 1, i, hi, hl => by
    unfold manyLoop
    have := h i hi
    unfold InsideA Alike at this
    split at this
    · rename_i h1 h2
      rw [h1, h2]
      obtain ⟨rfl, ht⟩ := this
      obtain ⟨w, rfl⟩ := hs _ _ _ h2
      refine (cowMany_inside hs h fuel _ hi.right (Nat.le_trans hl hi.le)).bind fun r vs ss _ hss => ?_
      refine .ok ⟨by simp [ht.1, hss.1], ?_⟩
      intro s hsm
      rcases List.mem_cons.mp hsm with rfl | hsm
      · exact (ht.le hl).2
      · exact hss.2 s hsm
    · rename_i h1 h2
      rw [h1, h2]
      exact .ok ⟨rfl, by simp⟩
    · rename_i h1 h2
      rw [h1, h2]
      exact this
    · exact this.elim

theorem cowPhrase_inside {i : Bytes} (hi : At p i) : Alike (cowPhrase c p i) (phrase c i)
    fun _ vs ss => ss.map (·.content p.memory) = vs ∧ ∀ s ∈ ss, Within (p.addr i) p.stop s := by
  have hs : ∀ i r v, phraseWord c i = .ok (r, v) → ∃ w, i = w ++ r := by
    intro i r v h
    have := phraseWord_parses (c := c) i
    rw [h] at this
    exact ⟨_, this.choose_spec.1⟩
  unfold cowPhrase phrase many1
  refine (cowPhraseWord_inside hi).bind fun r v s h1 hv => ?_
  obtain ⟨w, rfl⟩ := hs _ _ _ h1
  refine (cowMany_inside hs (fun i hi => cowPhraseWord_inside hi) _ r hi.right hi.le).bind fun r vs ss _ hss => ?_
  refine .ok ⟨by simp [hv.1, hss.1], ?_⟩
  intro s hsm
  rcases List.mem_cons.mp hsm with rfl | hsm
  · exact hv.2
  · exact hss.2 s hsm

theorem cowMimeUnstructuredLoop_inside {lo : Nat} : ∀ fuel (prev : Bool) (i : Bytes) (out : CowStr) (vout : Bytes), At p i →
    lo ≤ p.addr i → Inside p lo vout out →
    Alike (cowMimeUnstructuredLoop c p fuel prev i out) (mimeUnstructuredLoop c fuel prev i)
      fun _ v s => Inside p lo (vout ++ v) s
  | 0, _, _, _, _, _, _, _ => rfl
  | fuel + 1, prev, i, out, vout, hi, hl, ho => by
    unfold cowMimeUnstructuredLoop mimeUnstructuredLoop
    refine (cowFwsOrEmpty_agree (q := false) hi).bind fun j white s _ hs => ?_
    have hj := hs.at hi
    have hlj : lo ≤ p.addr j := by
      obtain ⟨w, rfl, -⟩ := hs
      exact Nat.le_trans hl hi.le
    have hs := (hs.inside hi).le hl
    have next : ∀ b r w' str t, j = w' ++ r → Inside p lo str t → Alike
        (cowMimeUnstructuredLoop c p fuel b r (addString p.memory out t))
        (do
          let (input, output) ← mimeUnstructuredLoop c fuel b r
          .ok (input, str ++ output)) fun _ v s => Inside p lo (vout ++ v) s := by
      rintro b r w' str t rfl ht
      have ih := cowMimeUnstructuredLoop_inside fuel b r _ _ hj.right (Nat.le_trans hlj hj.le) (ho.add ht)
      refine ih.mapRight (f := fun output => str ++ output) fun _ v' s h => ?_
      simpa using h
    dsimp only
    have h2 := encodedWord_parses (A := .none) (c := c) j
    unfold cowEncodedWord
    cases hx : encodedWord c j with
    | ok a =>
      rw [hx] at h2
      obtain ⟨w', hw', -⟩ := h2
      simp only [ok_bind]
      cases prev with
      | true => exact next true _ w' _ _ hw' .owned
      | false => exact next true _ w' _ _ hw' (hs.add .owned)
    | err e =>
      simp only [err_bind]
      cases hy : takeWhile1 j isVchar with
      | ok a =>
        obtain ⟨hj', -, -⟩ := takeWhile1_split hy
        dsimp only
        rw [C49_add_str]
        refine next false _ _ _ _ hj' (hs.add ?_)
        have := slice_inside (p := p) (u := []) (v := a.2) (r := a.1) (by rw [← hj']; exact hj)
        rw [List.nil_append, ← hj'] at this
        exact this.le hlj
      | err e => exact .ok (by simpa using ho)
      | abort k => rfl
    | abort k => rfl

theorem cowMimeUnstructured_inside {i : Bytes} (hi : At p i) :
    InsideA p i (cowMimeUnstructured c p i) (mimeUnstructured c i) := by
  unfold cowMimeUnstructured mimeUnstructured
  refine (cowMimeUnstructuredLoop_inside _ false i _ [] hi (Nat.le_refl _) .empty).bind fun r v s _ hs => ?_
  dsimp only
  cases dropWsp r with
  | ok a => exact .ok hs
  | err e => rfl
  | abort k => rfl

theorem encodedWord_infix {i r v w : Bytes} (h : ¬ b! "=?" <:+: w ++ i) (hx : encodedWord c i = .ok (r, v)) : False := by
  have : ¬ [61, 63] <+: i := by
    rintro ⟨t, rfl⟩
    exact h ⟨w, t, by simp⟩
  obtain ⟨e, he⟩ := encodedWord_err_start (c := c) this
  rw [he] at hx
  cases hx

/-- Without encoded words, both kinds of text are read in the same way. -/
theorem cowMimeUnstructuredLoop_plain : ∀ fuel (prev : Bool) (i : Bytes) (out : CowStr), At p i → ¬ b! "=?" <:+: i →
    cowMimeUnstructuredLoop c p fuel prev i out = cowCollectManyLoop p (cowTextPiece p) fuel i out
  | 0, _, _, _, _, _ => rfl
  | fuel + 1, prev, i, out, h0, hi => by
    unfold cowMimeUnstructuredLoop cowCollectManyLoop cowTextPiece cowCollectPair
    have hf : ∀ j s, cowFwsOrEmpty p i = .ok (j, s) → ∃ w, i = w ++ j := by
      intro j s hs
      have := cowFwsOrEmpty_agree (q := true) h0
      rw [hs] at this
      cases hx : fwsOrEmpty i with
      | ok a =>
        rw [hx] at this
        obtain ⟨-, w, h, -⟩ := this
        exact ⟨w, h⟩
      | err e => rw [hx] at this; exact this.elim
      | abort k => rw [hx] at this; exact this.elim
    cases hx : cowFwsOrEmpty p i with
    | err e =>
      unfold cowFwsOrEmpty at hx
      split at hx <;> cases hx
    | abort k => rfl
    | ok a =>
      obtain ⟨w, hw⟩ := hf _ _ hx
      simp only [ok_bind]
      have hj : ¬ [61, 63] <+: a.1 := by
        rintro ⟨t, ht⟩
        exact hi ⟨w, t, by rw [hw, ← ht]; simp⟩
      obtain ⟨e, he⟩ := encodedWord_err_start (c := c) hj
      unfold cowEncodedWord
      rw [he]
      simp only [err_bind]
      cases hy : takeWhile1 a.1 isVchar with
      | ok b =>
        dsimp only
        rw [C49_add_str]
        have e1 := (takeWhile1_split hy).1
        refine cowMimeUnstructuredLoop_plain fuel false _ _ ?_ ?_
        · rw [hw, e1] at h0
          exact h0.right.right
        rintro ⟨x, y, hxy⟩
        refine hi ⟨w ++ (b.2 ++ x), y, ?_⟩
        rw [hw, e1, ← hxy]
        simp
      | err e => rfl
      | abort k => rfl

theorem cowMimeUnstructured_plain {i : Bytes} (hi : At p i) (h : ¬ b! "=?" <:+: i) : cowMimeUnstructured c p i = cowUnstructured p i := by
  show _ = (cowCollectMany p i (cowTextPiece p)) >>= _
  unfold cowMimeUnstructured cowCollectMany
  rw [cowMimeUnstructuredLoop_plain _ _ _ _ hi h]

/-! ### Domain literals -/

/-- The loop of a domain literal has read `u`, of which the content is `v`. -/
inductive Runs (p : Place) (pos : Nat) (u v : Bytes) : CowStr → Prop
  | empty {a} : (∀ b ∈ u, dtext b = false) → v = [] → Runs p pos u v (.borrowed a 0)
  | borrowed {a gap} : v ≠ [] → (∀ b ∈ v, dtext b = true) → u = gap ++ v → (∀ b ∈ gap, dtext b = false) → a + v.length = pos →
      p.memory.read a v.length = v → Runs p pos u v (.borrowed a v.length)
  | owned {x e gap z y} : u = x ++ e :: (gap ++ z :: y) → dtext e = true → dtext z = true → gap ≠ [] →
      (∀ b ∈ gap, dtext b = false) → Runs p pos u v (.owned v)

theorem Runs.content {pos : Nat} {u v : Bytes} {s : CowStr} (h : Runs p pos u v s) : s.content p.memory = v := by
  cases h with
  | empty _ h => rw [h]; rfl
  | borrowed _ _ _ _ _ h => exact h
  | owned => rfl

theorem Runs.add {pos : Nat} {u v gap w r : Bytes} {s : CowStr} (hi : At p (gap ++ (w ++ r)))
    (h : Runs p (p.addr (gap ++ (w ++ r))) u v s) (hg : ∀ b ∈ gap, dtext b = false) (hne : w ≠ [])
    (hw : ∀ b ∈ w, dtext b = true) (hp : pos = p.addr r) :
    Runs p pos (u ++ (gap ++ w)) (v ++ w) (addString p.memory s (p.slice (w ++ r) w)) := by
  subst hp
  have h1 := hi.addr
  have h2 := hi.right.addr
  have h3 : p.memory.read (p.addr (w ++ r)) w.length = w := hi.right.slice
  have hl : w.length ≠ 0 := by simpa using hne
  cases h with
  | empty hu hv =>
    subst hv
    unfold addString Place.slice
    simp only [hl, if_false, if_true, List.nil_append]
    refine .borrowed (gap := u ++ gap) hne hw (by simp) ?_ h2.symm h3
    intro b hb
    rcases List.mem_append.mp hb with hb | hb
    · exact hu b hb
    · exact hg b hb
  | @borrowed a gap' hv hvd hu hg' ha hr =>
    subst hu
    have hl' : v.length ≠ 0 := by simpa using hv
    unfold addString Place.slice
    simp only [hl, hl', if_false]
    split
    · rename_i hadj
      have : gap = [] := List.eq_nil_of_length_eq_zero (by omega)
      subst this
      rw [← List.length_append]
      refine .borrowed (gap := gap') (by simp [hv]) (fun b hb => (List.mem_append.mp hb).elim (hvd b) (hw b)) (by simp) hg' (by simp; omega) ?_
      rw [List.length_append, read_append, hr, hadj, h3]
    · rename_i hadj
      have hne' : gap ≠ [] := by
        rintro rfl
        exact hadj (by simpa using ha)
      have hc1 : (CowStr.borrowed a v.length).content p.memory = v := hr
      have hc2 : (CowStr.borrowed (p.addr (w ++ r)) w.length).content p.memory = w := h3
      rw [hc1, hc2]
      obtain ⟨x, e, rfl⟩ : ∃ x e, v = x ++ [e] := ⟨_, _, (List.dropLast_concat_getLast hv).symm⟩
      obtain ⟨z, y, rfl⟩ := List.exists_cons_of_ne_nil hne
      exact .owned (x := gap' ++ x) (e := e) (gap := gap) (z := z) (y := y) (by simp) (hvd e (by simp)) (hw z (by simp))
        hne' hg
  | @owned x e gap' z y hu he hz hn hg' =>
    show Runs p _ _ _ (.owned (v ++ p.memory.read _ _))
    rw [h3]
    exact .owned (x := x) (e := e) (gap := gap') (z := z) (y := y ++ (gap ++ w)) (by rw [hu]; simp) he hz hn hg'

theorem fws_nondtext {w v : Bytes} (h : Fws w v) : ∀ b ∈ w, dtext b = false := by
  have hc : ∀ b : UInt8, wsp b = true → dtext b = false := by decide +kernel
  rcases h with ⟨w1, w2, v1, rfl, h1, w3, w4, ⟨⟩, rfl, h3, w5, w6, v5, rfl, h5, h6⟩ | h
  · obtain ⟨rfl, -⟩ := h6
    intro b hb
    simp only [List.append_nil, List.mem_append] at hb
    rcases hb with hb | hb | hb
    · exact hc b (h1.2 b (h1.1 ▸ hb))
    · obtain rfl : w3 = CRLF := h3
      rcases List.mem_cons.mp hb with rfl | hb
      · rfl
      · rw [List.mem_singleton.mp hb]
        rfl
    · exact hc b (h5.2.2 b hb)
  · intro b hb
    exact hc b (h.2.2 b hb)

theorem cowDomainLiteralLoop_agree : ∀ fuel (i : Bytes) (out : CowStr) (u vout : Bytes), At p i →
    Runs p (p.addr i) u vout out →
    Alike (cowDomainLiteralLoop p fuel i out) (domainLiteralLoop fuel i)
      fun r v s => ∃ w, i = w ++ r ∧ Runs p (p.addr r) (u ++ w) (vout ++ v) s
  | 0, _, _, _, _, _, _ => rfl
  | fuel + 1, i, out, u, vout, hi, ho => by
    unfold cowDomainLiteralLoop domainLiteralLoop
    refine (Alike.same (R := fun r _ _ => ∃ w, i = w ++ r ∧ ∀ b ∈ w, dtext b = false) _ fun r b hb => ?_).bind ?_
    · have := optFws_psat (A := .none) i
      rw [hb] at this
      obtain ⟨w, hw, hf⟩ := this
      refine ⟨w, hw, ?_⟩
      rcases hf with ⟨rfl, -⟩ | ⟨v, -, hf⟩
      · simp
      · exact fws_nondtext hf
    rintro j b b' - ⟨gap, rfl, hgap⟩
    dsimp only
    cases hx : takeWhile1 j isDtext with
    | ok a =>
      obtain ⟨hj, hne, hd⟩ := takeWhile1_split hx
      subst hj
      dsimp only
      rw [C49_add_str]
      rw [isDtext_eq] at hd
      have ih := cowDomainLiteralLoop_agree fuel a.1 _ _ _ hi.right.right (ho.add hi hgap hne hd rfl)
      refine ih.mapRight (f := fun v => a.2 ++ v) fun r v s h => ?_
      obtain ⟨w, hw, h⟩ := h
      exact ⟨gap ++ (a.2 ++ w), by simp [hw], by simpa using h⟩
    | err e => exact .ok ⟨[], rfl, by simpa using ho⟩
    | abort k => rfl

/-- The text before, which is not part of the domain, and after. -/
theorem cowDomainLiteral_agree {i : Bytes} (hi : At p i) : Alike (cowDomainLiteral c p i) (domainLiteral c i)
    fun r v s => ∃ pre raw gap post, i = pre ++ (b! "[" ++ (raw ++ (gap ++ (b! "]" ++ (post ++ r))))) ∧ OptCfws pre () ∧
      OptCfws post () ∧ DomainText (raw ++ gap) v ∧ (∀ b ∈ gap, dtext b = false) ∧
      Runs p (p.addr (gap ++ (b! "]" ++ (post ++ r)))) raw v s := by
  unfold cowDomainLiteral domainLiteral
  refine .bindRest fun i₁ h1 => ?_
  have := skipCfws_sat (c := c) i
  rw [h1] at this
  obtain ⟨pre, rfl, hpre⟩ := this
  refine (Alike.same (R := fun r _ _ => i₁ = b! "[" ++ r) _ fun r b hb => tag_ok_iff.mp hb).bind ?_
  rintro i₂ ⟨⟩ ⟨⟩ - rfl
  have hi := hi.right.right
  refine (cowDomainLiteralLoop_agree _ i₂ _ [] [] hi (.empty (by simp) rfl)).bind fun i₃ v s h3 hs => ?_
  have := domainLiteralLoop_psat (A := .none) (i₂.length + 1) i₂ (by omega)
  rw [h3] at this
  obtain ⟨w₁, hw₁, vs, rfl, hq⟩ := this
  obtain ⟨w, rfl, hs⟩ := hs
  obtain rfl := List.append_cancel_right hw₁
  refine (Alike.same (R := fun r v _ => ∃ w, i₃ = w ++ r ∧ (∀ b ∈ w, dtext b = false) ∧ Gram.opt Fws w v) _
    fun r b hb => ?_).bind ?_
  · have := optFws_psat (A := .none) i₃
    rw [hb] at this
    obtain ⟨w, hw, hf⟩ := this
    refine ⟨w, hw, ?_, hf⟩
    rcases hf with ⟨rfl, -⟩ | ⟨v, -, hf⟩
    · simp
    · exact fws_nondtext hf
  rintro i₄ f _ - ⟨gap, rfl, hgap, hf⟩
  refine (Alike.same (R := fun r _ _ => i₄ = b! "]" ++ r) _ fun r b hb => tag_ok_iff.mp hb).bind ?_
  rintro i₅ ⟨⟩ ⟨⟩ - rfl
  refine .bindRest fun i₆ h6 => ?_
  have := skipCfws_sat (c := c) i₅
  rw [h6] at this
  obtain ⟨post, rfl, hpost⟩ := this
  refine .ok ⟨pre, w, gap, post, by simp, hpre, hpost, ?_, hgap, hs⟩
  exact ⟨w, gap, vs, rfl, hq, gap, [], f, by simp, hf, rfl, rfl⟩

/-- The runs are apart exactly if the domain is not a part of the text. -/
theorem Runs.infix {pos : Nat} {raw gap v : Bytes} {s : CowStr} (h : Runs p pos raw v s)
    (hv : v = (raw ++ gap).filter dtext) : Owned s ↔ ¬ v <:+: raw ++ gap := by
  cases h with
  | empty hu hv => exact ⟨fun h => h.elim, fun h => (h (hv ▸ ⟨[], raw ++ gap, rfl⟩)).elim⟩
  | @borrowed a gap' _ _ hu =>
    exact ⟨fun h => h.elim, fun h => (h ⟨gap', gap, by rw [hu]⟩).elim⟩
  | @owned x e gap' z y hu he hz hn hg =>
    refine ⟨fun _ => ?_, fun _ => trivial⟩
    rintro ⟨a, b, hab⟩
    have hf := congrArg (List.filter dtext) hab
    have hvd : v.filter dtext = v := by
      rw [hv]
      simp
    rw [← hv, List.filter_append, List.filter_append, hvd] at hf
    have hl := congrArg List.length hf
    simp only [List.length_append] at hl
    have ha : ∀ c ∈ a, dtext c = false := by
      have : a.filter dtext = [] := List.eq_nil_of_length_eq_zero (by omega)
      simpa using this
    have hb : ∀ c ∈ b, dtext c = false := by
      have : b.filter dtext = [] := List.eq_nil_of_length_eq_zero (by omega)
      simpa using this
    rw [hu] at hab
    have e1 : a ++ (v ++ b) = (x ++ [e]) ++ (gap' ++ z :: (y ++ gap)) := by simpa using hab
    have e2 : ∃ t, x ++ [e] = a ++ t := by
      rcases List.append_eq_append_iff.mp e1 with ⟨t, h, -⟩ | ⟨t, h, -⟩
      · exact ⟨t, h⟩
      · have := ha e (h ▸ by simp)
        rw [he] at this
        cases this
    obtain ⟨t, ht⟩ := e2
    rw [ht, List.append_assoc, List.append_cancel_left_eq] at e1
    have e3 : v ++ b = (t ++ gap' ++ [z]) ++ (y ++ gap) := by simpa using e1
    have e4 : ∃ t', v = (t ++ gap' ++ [z]) ++ t' := by
      rcases List.append_eq_append_iff.mp e3 with ⟨t', h, h'⟩ | ⟨t', h, -⟩
      · rcases List.eq_nil_or_concat t' with rfl | ⟨t'', d, rfl⟩
        · exact ⟨[], by simpa using h.symm⟩
        · have : d = z := by
            have := congrArg List.getLast? h
            simpa using this.symm
          have := hb d (by rw [h']; simp)
          subst d
          rw [hz] at this
          cases this
      · exact ⟨t', h⟩
    obtain ⟨t', ht'⟩ := e4
    obtain ⟨g, gs, rfl⟩ := List.exists_cons_of_ne_nil hn
    have h1 := hg g (by simp)
    have h2 : g ∈ v.filter dtext := by
      rw [hvd, ht']
      simp
    rw [(List.mem_filter.mp h2).2] at h1
    cases h1

theorem domainParts_filter {w : Bytes} {vs : List Bytes} (h : Gram.star (do
    let _ ← Gram.opt Fws
    Gram.chars1 dtext) w vs) : vs.flatten = w.filter dtext := by
  induction h with
  | nil => rfl
  | cons h _ ih =>
    obtain ⟨w1, w2, o, rfl, h1, h2⟩ := h
    have e1 : w1.filter dtext = [] := by
      rcases h1 with ⟨rfl, -⟩ | ⟨v, -, h1⟩
      · rfl
      · simpa using fws_nondtext h1
    obtain ⟨rfl, -, h2⟩ := h2
    rw [List.flatten_cons, ih, List.filter_append, List.filter_append, e1, List.nil_append,
      List.filter_eq_self.mpr h2]

theorem domainText_filter {w v : Bytes} (h : DomainText w v) : v = w.filter dtext := by
  obtain ⟨w1, w2, vs, rfl, h1, w3, w4, o, rfl, h3, rfl, rfl⟩ := h
  have e1 : w3.filter dtext = [] := by
    rcases h3 with ⟨rfl, -⟩ | ⟨v, -, h1⟩
    · rfl
    · simpa using fws_nondtext h1
  rw [List.append_nil, List.filter_append, e1, List.append_nil, domainParts_filter h1]

theorem Runs.inside {raw r v : Bytes} {s : CowStr} (hi : At p (raw ++ r)) (h : Runs p (p.addr r) raw v s) :
    Inside p (p.addr (raw ++ r)) v s := by
  refine ⟨h.content, ?_⟩
  have := hi.addr
  have : p.addr r ≤ p.stop := by simp [Place.addr]
  cases h with
  | empty => exact .inl rfl
  | borrowed _ _ hu _ ha =>
    have := congrArg List.length hu
    rw [List.length_append] at this
    exact .inr ⟨by omega, by omega⟩
  | owned => trivial

theorem cowDomainLiteral_inside {i : Bytes} (hi : At p i) : InsideA p i (cowDomainLiteral c p i) (domainLiteral c i) := by
  refine (cowDomainLiteral_agree hi).mono ?_
  rintro r v s - ⟨pre, raw, gap, post, rfl, -, -, -, -, h⟩
  exact (h.inside hi.right.right).le (Nat.le_trans hi.le hi.right.le)

theorem cowLocalPart_inside {i : Bytes} (hi : At p i) : InsideA p i (cowLocalPart c p i) (localPart c i) :=
  .matchParsers ((cowDotAtom_agree hi).mono fun _ _ _ _ h => h.inside hi)
    (.matchParsers (cowQuotedString_inside hi) .matchNil)

theorem cowDomain_inside {i : Bytes} (hi : At p i) : InsideA p i (cowDomain c p i) (domain c i) :=
  .matchParsers ((cowDotAtom_agree hi).mono fun _ _ _ _ h => h.inside hi)
    (.matchParsers (cowDomainLiteral_inside hi) .matchNil)

theorem cowAddrSpec_inside {i : Bytes} (hi : At p i) : Alike (cowAddrSpec c p i) (addrSpec c i)
    fun _ v s => Inside p (p.addr i) v.localPart s.1 ∧ Inside p (p.addr i) v.domain s.2 := by
  unfold cowAddrSpec addrSpec
  refine (cowLocalPart_inside hi).bind fun i₁ v s h1 hv => ?_
  have := localPart_parses (c := c) i
  rw [h1] at this
  obtain ⟨w, rfl, -⟩ := this
  refine (Alike.same (R := fun r _ _ => i₁ = b! "@" ++ r) _ fun r b hb => tag_ok_iff.mp hb).bind ?_
  rintro i₂ ⟨⟩ ⟨⟩ - rfl
  refine (cowDomain_inside hi.right.right).bind fun i₃ v' s' _ hv' => ?_
  exact .ok ⟨hv, hv'.le (Nat.le_trans hi.le hi.right.le)⟩

theorem cowMessageId_inside {i : Bytes} (hi : At p i) : Alike (cowMessageId c p i) (messageId c i)
    fun _ v s => Inside p (p.addr i) v.1 s.1 ∧ Inside p (p.addr i) v.2 s.2 := by
  refine (cowMessageId_agree hi).mono ?_
  rintro r v s - ⟨pre, mid, rfl, h1, pre', post, rfl, -, h2⟩
  rw [h1, h2]
  refine ⟨slice_inside hi, ?_⟩
  exact (slice_inside hi.right.right.right).le (Nat.le_trans (Nat.le_trans hi.le hi.right.le) hi.right.right.le)

end EmailParser
