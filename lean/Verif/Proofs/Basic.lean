import Verif.Model.Message
/-
Reasoning about outcomes: simplification rules for the monad, and the predicate `Sat`
("every value returned satisfies `Q`, every abort satisfies `A`").
-/
namespace EmailParser

section
variable {α β γ : Type}

@[simp] theorem pure_eq_ok (a : α) : (pure a : Outcome α) = .ok a := rfl
@[simp] theorem ok_bind (a : α) (f : α → Outcome β) : (Outcome.ok a >>= f) = f a := rfl
@[simp] theorem err_bind (e : Error) (f : α → Outcome β) : (Outcome.err e >>= f) = .err e := rfl
@[simp] theorem abort_bind (k : Abort) (f : α → Outcome β) :
    (Outcome.abort k >>= f) = .abort k := rfl

theorem bind_eq_ok {x : Outcome α} {f : α → Outcome β} {b : β} :
    (x >>= f) = .ok b ↔ ∃ a, x = .ok a ∧ f a = .ok b := by
  cases x <;> simp

theorem bind_eq_abort {x : Outcome α} {f : α → Outcome β} {k : Abort} :
    (x >>= f) = .abort k ↔ x = .abort k ∨ ∃ a, x = .ok a ∧ f a = .abort k := by
  cases x <;> simp

theorem bind_eq_err {x : Outcome α} {f : α → Outcome β} {e : Error} :
    (x >>= f) = .err e ↔ x = .err e ∨ ∃ a, x = .ok a ∧ f a = .err e := by
  cases x <;> simp

theorem outcome_bind_assoc (x : Outcome α) (f : α → Outcome β) (g : β → Outcome γ) :
    (x >>= f) >>= g = x >>= fun a => f a >>= g := by
  cases x <;> rfl

/-- Every value satisfies `Q` and every abort satisfies `A`. -/
def Outcome.Sat (x : Outcome α) (Q : α → Prop) (A : Abort → Prop) : Prop :=
  match x with
  | .ok a => Q a
  | .err _ => True
  | .abort k => A k

@[simp] theorem sat_ok {a : α} {Q : α → Prop} {A} : (Outcome.ok a).Sat Q A ↔ Q a := Iff.rfl
@[simp] theorem sat_err {e : Error} {Q : α → Prop} {A} : (Outcome.err e).Sat Q A ↔ True := Iff.rfl
@[simp] theorem sat_abort {k : Abort} {Q : α → Prop} {A} :
    (Outcome.abort k).Sat Q A ↔ A k := Iff.rfl

theorem Outcome.Sat.bind {x : Outcome α} {f : α → Outcome β} {Q : α → Prop} {R : β → Prop} {A}
    (hx : x.Sat Q A) (hf : ∀ a, Q a → (f a).Sat R A) : (x >>= f).Sat R A := by
  cases x with
  | ok a => exact hf a hx
  | err e => trivial
  | abort k => exact hx

theorem Outcome.Sat.mono {x : Outcome α} {Q Q' : α → Prop} {A A' : Abort → Prop}
    (hx : x.Sat Q A) (hQ : ∀ a, Q a → Q' a) (hA : ∀ k, A k → A' k) : x.Sat Q' A' := by
  cases x with
  | ok a => exact hQ a hx
  | err e => trivial
  | abort k => exact hA k hx

theorem Outcome.Sat.of_ok {x : Outcome α} {Q : α → Prop} {A a} (hx : x.Sat Q A)
    (h : x = .ok a) : Q a := by subst h; exact hx

theorem Outcome.Sat.of_abort {x : Outcome α} {Q : α → Prop} {A k} (hx : x.Sat Q A)
    (h : x = .abort k) : A k := by subst h; exact hx

theorem sat_iff {x : Outcome α} {Q : α → Prop} {A} :
    x.Sat Q A ↔ (∀ a, x = .ok a → Q a) ∧ (∀ k, x = .abort k → A k) := by
  cases x <;> simp [Outcome.Sat]

/-- `if let Ok(v) = x { f v } else { g }`. -/
theorem Outcome.Sat.cases {x : Outcome α} {Q : α → Prop} {A} {P : Outcome α → Prop}
    (hx : x.Sat Q A) (hok : ∀ a, x = .ok a → Q a → P (.ok a)) (herr : ∀ e, x = .err e → P (.err e))
    (hab : ∀ k, x = .abort k → A k → P (.abort k)) : P x := by
  cases h : x with
  | ok a => subst h; exact hok a rfl hx
  | err e => subst h; exact herr e rfl
  | abort k => subst h; exact hab k rfl hx

end

/-! ### Bytes -/

/-- A property of all bytes can be checked on the 256 numbers. -/
theorem forall_uint8 {P : UInt8 → Prop} (h : ∀ n : Fin 256, P ⟨⟨n⟩⟩) : ∀ c : UInt8, P c :=
  fun c => h c.toBitVec.toFin

instance {P : UInt8 → Prop} [∀ c, Decidable (P c)] : Decidable (∀ c : UInt8, P c) :=
  decidable_of_iff (∀ n : Fin 256, P ⟨⟨n⟩⟩) ⟨forall_uint8, fun h _ => h _⟩

/-! ### Slices -/

theorem getUncheckedFrom_append (u v : Bytes) : getUncheckedFrom (u ++ v) u.length = .ok v := by
  simp [getUncheckedFrom]

theorem getUncheckedTo_append (u v : Bytes) : getUncheckedTo (u ++ v) u.length = .ok u := by
  simp [getUncheckedTo]

theorem startsWith_iff {input pre : Bytes} : startsWith input pre = true ↔ pre <+: input := by
  simp [startsWith]

theorem startsWith_append (u v : Bytes) : startsWith (u ++ v) u = true := by
  simp [startsWith]

end EmailParser
