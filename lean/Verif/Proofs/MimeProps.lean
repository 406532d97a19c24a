import Verif.Proofs.Complete.Lexical
/-
Numbers and percent-decoding: what the parsers return (for C37, C38, C48).
-/
namespace EmailParser

/-! ### Numbers -/

theorem digit_append {d : UInt8} {r : Bytes} (h : Spec.digit d = true) :
    digit (d :: r) = .ok (r, d.toNat - 48) := by
  have : ∀ d : UInt8, Spec.digit d = true → (d ≥ 48 && d ≤ 57) = true := by decide +kernel
  unfold digit
  simp only [this d h, if_true]

theorem digit_err {r : Bytes} (h : Stops Spec.digit r) : ∃ e, digit r = .err e := by
  cases r with
  | nil => exact ⟨_, rfl⟩
  | cons d r =>
    have : ∀ d : UInt8, Spec.digit d = false → (d ≥ 48 && d ≤ 57) = false := by decide +kernel
    unfold digit
    simp only [this d (stops_cons.mp h)]
    exact ⟨_, rfl⟩

theorem digit_toNat {d : UInt8} : Spec.digit d = true → d.toNat - 48 < 10 := by
  revert d
  decide +kernel

theorem decimal_le_append (u ds : Bytes) : Spec.decimal u ≤ Spec.decimal (u ++ ds) := by
  induction ds generalizing u with
  | nil => simp
  | cons d ds ih =>
    have h := ih (u ++ [d])
    have e : Spec.decimal (u ++ [d]) = 10 * Spec.decimal u + (d.toNat - 48) := by
      simp [Spec.decimal]
    simp only [List.append_assoc, List.cons_append, List.nil_append] at h
    omega

theorem u8NumberLoop_append : ∀ (ds : Bytes) (fuel : Nat) (u r : Bytes), ds.length < fuel →
    (∀ d ∈ ds, Spec.digit d = true) → Stops Spec.digit r →
    (Spec.decimal (u ++ ds) < 256 →
      u8NumberLoop fuel (ds ++ r) (Spec.decimal u) = .ok (r, Spec.decimal (u ++ ds))) ∧
    (Spec.decimal u < 256 → 256 ≤ Spec.decimal (u ++ ds) →
      ∃ e, u8NumberLoop fuel (ds ++ r) (Spec.decimal u) = .err e)
  | _, 0, _, _, h, _, _ => by omega
  | [], fuel + 1, u, r, _, _, hr => by
    obtain ⟨e, he⟩ := digit_err hr
    unfold u8NumberLoop
    simp only [List.nil_append, he, List.append_nil]
    exact ⟨fun _ => trivial, fun h h' => by omega⟩
  | d :: ds, fuel + 1, u, r, h, hd, hr => by
    have ih := u8NumberLoop_append ds fuel (u ++ [d]) r (by simpa using h)
      (fun x hx => hd x (by simp [hx])) hr
    have e : Spec.decimal (u ++ [d]) = Spec.decimal u * 10 + (d.toNat - 48) := by
      simp [Spec.decimal]; omega
    have hle := decimal_le_append (u ++ [d]) ds
    simp only [List.append_assoc, List.cons_append, List.nil_append] at ih hle
    unfold u8NumberLoop
    simp only [List.cons_append, digit_append (hd d (by simp))]
    rw [e] at ih hle
    refine ⟨fun hlt => ?_, fun hu hge => ?_⟩
    · rw [if_pos (by omega), if_pos (by omega)]
      exact ih.1 hlt
    · split
      · split
        · exact ih.2 (by omega) hge
        · exact ⟨_, rfl⟩
      · exact ⟨_, rfl⟩

theorem u8Number_append {ds r : Bytes} (hne : ds ≠ []) (hd : ∀ d ∈ ds, Spec.digit d = true)
    (hr : Stops Spec.digit r) :
    (Spec.decimal ds < 256 → u8Number (ds ++ r) = .ok (r, Spec.decimal ds)) ∧
    (256 ≤ Spec.decimal ds → ∃ e, u8Number (ds ++ r) = .err e) := by
  cases ds with
  | nil => exact absurd rfl hne
  | cons d ds =>
    have hdd := hd d (by simp)
    have e : d.toNat - 48 = Spec.decimal [d] := by simp [Spec.decimal]
    have := u8NumberLoop_append ds ((ds ++ r).length + 1) [d] r
      (by simp; omega) (fun x hx => hd x (by simp [hx])) hr
    unfold u8Number
    simp only [List.cons_append, digit_append hdd, ok_bind]
    rw [e]
    simp only [List.cons_append, List.nil_append] at this
    refine ⟨this.1, this.2 ?_⟩
    have := digit_toNat hdd
    omega

/-! ### Percent-decoding -/

theorem hexValue_ne {a : UInt8} : (Spec.hexValue a).isSome = true → a ≠ 37 := by
  revert a
  decide +kernel

theorem pctDecodeRight_eq : ∀ s : Bytes, Spec.pctWellFormed s →
    Spec.pctDecodeRight s = Spec.pctDecode s := by
  intro s
  fun_induction Spec.pctDecode s with
  | case1 a b bs x y hx hy ih =>
    intro h
    obtain ⟨ha, hb, h⟩ := h
    have ha := hexValue_ne ha
    have hb := hexValue_ne hb
    simp [Spec.pctDecodeRight, ha, hb, hx, hy, ih h]
  | case2 a b bs hn ih =>
    intro h
    obtain ⟨ha, hb, h⟩ := h
    obtain ⟨x, hx⟩ := Option.isSome_iff_exists.mp ha
    obtain ⟨y, hy⟩ := Option.isSome_iff_exists.mp hb
    exact (hn x y hx hy).elim
  | case3 b bs hn ih =>
    intro h
    have h' : b ≠ 37 ∧ Spec.pctWellFormed bs := by
      cases bs with
      | nil => simpa [Spec.pctWellFormed] using h
      | cons x bs =>
        cases bs with
        | nil => simpa [Spec.pctWellFormed] using h
        | cons y bs =>
          by_cases hb : b = 37
          · subst hb; exact (hn x y bs rfl rfl).elim
          · rw [Spec.pctWellFormed.eq_2 b (x :: y :: bs) hn] at h
            exact h
    simp [Spec.pctDecodeRight, h'.1, ih h'.2]
  | case4 => intro _; rfl

end EmailParser
