import Verif.Proofs.Basic
import Verif.Spec.Base64
/-
The in-place base64 decoder and the encoder refine the specification.
-/
namespace EmailParser
open Spec

theorem sextet?_eq : ∀ c : UInt8, sextet? c = (getValueEncoded c).map UInt8.toNat := by
  decide +kernel

theorem getValueEncoded_lt : ∀ c : UInt8, ∀ v, getValueEncoded c = some v → v < 64 := by
  have : ∀ c : UInt8, (getValueEncoded c).all (· < 64) = true := by decide +kernel
  intro c v h
  have := this c
  simp [h] at this
  exact this

theorem getValueEncoded_pad : getValueEncoded 61 = none := by decide

theorem b64Tokens_nil : b64Tokens [] = [] := rfl

theorem b64Tokens_cons_value {c : UInt8} {v : UInt8} (s : Bytes) (h : getValueEncoded c = some v) :
    b64Tokens (c :: s) = .value v.toNat :: b64Tokens s := by
  have hc : c ≠ 61 := by rintro rfl; simp [getValueEncoded_pad] at h
  simp [b64Tokens, hc, sextet?_eq, h]

theorem b64Tokens_cons_pad (s : Bytes) : b64Tokens (61 :: s) = .pad :: b64Tokens s := by
  simp [b64Tokens]

theorem b64Tokens_cons_skip {c : UInt8} (s : Bytes) (h : getValueEncoded c = none) (hc : c ≠ 61) :
    b64Tokens (c :: s) = b64Tokens s := by
  simp [b64Tokens, hc, sextet?_eq, h]

theorem drop_eq_cons {α} {data : List α} {i : Nat} {b : α} (h : data[i]? = some b) :
    data.drop i = b :: data.drop (i + 1) := by
  obtain ⟨hi, rfl⟩ := List.getElem?_eq_some_iff.mp h
  exact List.drop_eq_getElem_cons hi

theorem drop_eq_nil_of_none {α} {data : List α} {i : Nat} (h : data[i]? = none) :
    data.drop i = [] := by
  simpa using h

/-- `'inner1`. -/
theorem base64Inner1_spec (data : Bytes) : ∀ fuel i offset, data.length < fuel + i →
    i ≤ data.length →
    ∃ k, (base64Inner1 data fuel i offset = .ok (i + k, offset + k, none) ∧
          i + k ≤ data.length ∧
          b64Decode .start (b64Tokens (data.drop i)) = .ok []) ∨
      ∃ v, base64Inner1 data fuel i offset = .ok (i + k, offset + k, some v) ∧ v < 64 ∧
        i + k < data.length ∧
        b64Decode .start (b64Tokens (data.drop i)) =
          b64Decode (.one v.toNat) (b64Tokens (data.drop (i + k + 1)))
  | 0, i, offset, h, hi => by omega
  | fuel + 1, i, offset, h, hi => by
    cases hd : data[i]? with
    | none =>
      refine ⟨0, .inl ⟨by simp [base64Inner1, hd], by omega, ?_⟩⟩
      simp [drop_eq_nil_of_none hd, b64Tokens_nil, b64Decode]
    | some b =>
      have hlt := (List.getElem?_eq_some_iff.mp hd).1
      rw [drop_eq_cons hd]
      cases hb : getValueEncoded b with
      | some v =>
        refine ⟨0, .inr ⟨v, by simp [base64Inner1, hd, hb], getValueEncoded_lt _ _ hb, by omega, ?_⟩⟩
        rw [b64Tokens_cons_value _ hb]; rfl
      | none =>
        have e : base64Inner1 data (fuel + 1) i offset =
            base64Inner1 data fuel (i + 1) (offset + 1) := by simp [base64Inner1, hd, hb]
        have e2 : b64Decode .start (b64Tokens (b :: data.drop (i + 1))) =
            b64Decode .start (b64Tokens (data.drop (i + 1))) := by
          by_cases hp : b = 61
          · subst hp; rw [b64Tokens_cons_pad]; rfl
          · rw [b64Tokens_cons_skip _ hb hp]
        obtain ⟨k, hk⟩ := base64Inner1_spec data fuel (i + 1) (offset + 1) (by omega) (by omega)
        refine ⟨k + 1, ?_⟩
        rw [e, e2]
        have a1 : i + (k + 1) = i + 1 + k := by omega
        have a2 : offset + (k + 1) = offset + 1 + k := by omega
        rw [a1, a2]
        exact hk

/-- `'inner2`. -/
theorem base64Inner2_spec (data : Bytes) (a : Nat) : ∀ fuel i offset, data.length < fuel + i →
    i < data.length →
    (∃ e, base64Inner2 data fuel i offset = .err e ∧
          b64Decode (.one a) (b64Tokens (data.drop (i + 1))) = .err e) ∨
      ∃ k v, base64Inner2 data fuel i offset = .ok (i + k, offset + k, v) ∧ v < 64 ∧
        i + k + 1 < data.length ∧
        b64Decode (.one a) (b64Tokens (data.drop (i + 1))) =
          b64Decode (.two a v.toNat) (b64Tokens (data.drop (i + k + 2)))
  | 0, i, offset, h, hi => by omega
  | fuel + 1, i, offset, h, hi => by
    cases hd : data[i + 1]? with
    | none =>
      refine .inl ⟨.unknown "Missing at least 3 bytes", by simp [base64Inner2, hd], ?_⟩
      simp [drop_eq_nil_of_none hd, b64Tokens_nil, b64Decode]
    | some b =>
      have hlt := (List.getElem?_eq_some_iff.mp hd).1
      rw [drop_eq_cons hd]
      cases hb : getValueEncoded b with
      | some v =>
        refine .inr ⟨0, v, by simp [base64Inner2, hd, hb], getValueEncoded_lt _ _ hb, by omega, ?_⟩
        rw [b64Tokens_cons_value _ hb]; rfl
      | none =>
        have e : base64Inner2 data (fuel + 1) i offset =
            base64Inner2 data fuel (i + 1) (offset + 1) := by simp [base64Inner2, hd, hb]
        have e2 : b64Decode (.one a) (b64Tokens (b :: data.drop (i + 1 + 1))) =
            b64Decode (.one a) (b64Tokens (data.drop (i + 1 + 1))) := by
          by_cases hp : b = 61
          · subst hp; rw [b64Tokens_cons_pad]; rfl
          · rw [b64Tokens_cons_skip _ hb hp]
        rw [e, e2]
        rcases base64Inner2_spec data a fuel (i + 1) (offset + 1) (by omega) (by omega) with
          ⟨er, h1, h2⟩ | ⟨k, v, h1, hv, h2, h3⟩
        · exact .inl ⟨er, h1, h2⟩
        · refine .inr ⟨k + 1, v, ?_, hv, by omega, ?_⟩
          · rw [h1, show i + 1 + k = i + (k + 1) by omega,
              show offset + 1 + k = offset + (k + 1) by omega]
          · rw [h3, show i + 1 + k + 2 = i + (k + 1) + 2 by omega]

/-- `'inner3`. -/
theorem base64Inner3_spec (data : Bytes) (a b : Nat) : ∀ fuel i offset, data.length < fuel + i →
    i + 1 < data.length →
    (∃ e, base64Inner3 data fuel i offset = .err e ∧
          b64Decode (.two a b) (b64Tokens (data.drop (i + 2))) = .err e) ∨
      (∃ k, base64Inner3 data fuel i offset = .ok (i + k, offset + k, none) ∧
        i + k + 2 < data.length ∧
        b64Decode (.two a b) (b64Tokens (data.drop (i + 2))) =
          b64Decode (.twoPad a b) (b64Tokens (data.drop (i + k + 3)))) ∨
      (∃ k v, base64Inner3 data fuel i offset = .ok (i + k, offset + k, some v) ∧ v < 64 ∧
        i + k + 2 < data.length ∧
        b64Decode (.two a b) (b64Tokens (data.drop (i + 2))) =
          b64Decode (.three a b v.toNat) (b64Tokens (data.drop (i + k + 3))))
  | 0, i, offset, h, hi => by omega
  | fuel + 1, i, offset, h, hi => by
    cases hd : data[i + 2]? with
    | none =>
      refine .inl ⟨.unknown "Missing at least 2 bytes", by simp [base64Inner3, hd], ?_⟩
      simp [drop_eq_nil_of_none hd, b64Tokens_nil, b64Decode]
    | some x =>
      have hlt := (List.getElem?_eq_some_iff.mp hd).1
      rw [drop_eq_cons hd]
      by_cases hp : x = 61
      · subst hp
        refine .inr (.inl ⟨0, by simp [base64Inner3, hd], by omega, ?_⟩)
        rw [b64Tokens_cons_pad]; rfl
      cases hb : getValueEncoded x with
      | some v =>
        refine .inr (.inr ⟨0, v, by simp [base64Inner3, hd, hb, hp], getValueEncoded_lt _ _ hb,
          by omega, ?_⟩)
        rw [b64Tokens_cons_value _ hb]; rfl
      | none =>
        have e : base64Inner3 data (fuel + 1) i offset =
            base64Inner3 data fuel (i + 1) (offset + 1) := by simp [base64Inner3, hd, hb, hp]
        rw [e, b64Tokens_cons_skip _ hb hp]
        have a0 : i + 2 + 1 = i + 1 + 2 := by omega
        rw [a0]
        rcases base64Inner3_spec data a b fuel (i + 1) (offset + 1) (by omega) (by omega) with
          ⟨er, h1, h2⟩ | ⟨k, h1, h2, h3⟩ | ⟨k, v, h1, hv, h2, h3⟩
        · exact .inl ⟨er, h1, h2⟩
        · refine .inr (.inl ⟨k + 1, ?_, by omega, ?_⟩)
          · rw [h1, show i + 1 + k = i + (k + 1) by omega,
              show offset + 1 + k = offset + (k + 1) by omega]
          · rw [h3, show i + 1 + k + 3 = i + (k + 1) + 3 by omega]
        · refine .inr (.inr ⟨k + 1, v, ?_, hv, by omega, ?_⟩)
          · rw [h1, show i + 1 + k = i + (k + 1) by omega,
              show offset + 1 + k = offset + (k + 1) by omega]
          · rw [h3, show i + 1 + k + 3 = i + (k + 1) + 3 by omega]

/-- `'inner4` after padding. -/
theorem base64Inner4_pad_spec (data : Bytes) (a b : Nat) : ∀ fuel i offset,
    data.length < fuel + i → i + 2 < data.length →
    (∃ e, base64Inner4 data none fuel i offset = .err e ∧
          b64Decode (.twoPad a b) (b64Tokens (data.drop (i + 3))) = .err e) ∨
      (∃ k, base64Inner4 data none fuel i offset = .ok (i + k, offset + k, none) ∧
        i + k + 3 < data.length ∧
        b64Decode (.twoPad a b) (b64Tokens (data.drop (i + 3))) =
          (b64Decode .start (b64Tokens (data.drop (i + k + 4))) >>=
            fun rest => .ok (bytesOf2 a b ++ rest)))
  | 0, i, offset, h, hi => by omega
  | fuel + 1, i, offset, h, hi => by
    cases hd : data[i + 3]? with
    | none =>
      refine .inl ⟨.unknown "Missing at least 1 byte", by simp [base64Inner4, hd], ?_⟩
      simp [drop_eq_nil_of_none hd, b64Tokens_nil, b64Decode]
    | some x =>
      have hlt := (List.getElem?_eq_some_iff.mp hd).1
      rw [drop_eq_cons hd]
      by_cases hp : x = 61
      · subst hp
        refine .inr ⟨0, by simp [base64Inner4, hd], by omega, ?_⟩
        rw [b64Tokens_cons_pad]; rfl
      cases hb : getValueEncoded x with
      | some v =>
        refine .inl ⟨.unknown "Data after end of data", by simp [base64Inner4, hd, hb, hp], ?_⟩
        rw [b64Tokens_cons_value _ hb]; rfl
      | none =>
        have e : base64Inner4 data none (fuel + 1) i offset =
            base64Inner4 data none fuel (i + 1) (offset + 1) := by
          simp [base64Inner4, hd, hb, hp]
        rw [e, b64Tokens_cons_skip _ hb hp]
        have a0 : i + 3 + 1 = i + 1 + 3 := by omega
        rw [a0]
        rcases base64Inner4_pad_spec data a b fuel (i + 1) (offset + 1) (by omega) (by omega) with
          ⟨er, h1, h2⟩ | ⟨k, h1, h2, h3⟩
        · exact .inl ⟨er, h1, h2⟩
        · refine .inr ⟨k + 1, ?_, by omega, ?_⟩
          · rw [h1, show i + 1 + k = i + (k + 1) by omega,
              show offset + 1 + k = offset + (k + 1) by omega]
          · have : i + (k + 1) + 4 = i + 1 + k + 4 := by omega
            rw [h3, this]

/-- `'inner4` after three values. -/
theorem base64Inner4_value_spec (data : Bytes) (a b c : Nat) (b3 : UInt8) : ∀ fuel i offset,
    data.length < fuel + i → i + 2 < data.length →
    (∃ e, base64Inner4 data (some b3) fuel i offset = .err e ∧
          b64Decode (.three a b c) (b64Tokens (data.drop (i + 3))) = .err e) ∨
      (∃ k, base64Inner4 data (some b3) fuel i offset = .ok (i + k, offset + k, none) ∧
        i + k + 3 < data.length ∧
        b64Decode (.three a b c) (b64Tokens (data.drop (i + 3))) =
          (b64Decode .start (b64Tokens (data.drop (i + k + 4))) >>=
            fun rest => .ok (bytesOf3 a b c ++ rest))) ∨
      (∃ k v, base64Inner4 data (some b3) fuel i offset = .ok (i + k, offset + k, some v) ∧
        v < 64 ∧ i + k + 3 < data.length ∧
        b64Decode (.three a b c) (b64Tokens (data.drop (i + 3))) =
          (b64Decode .start (b64Tokens (data.drop (i + k + 4))) >>=
            fun rest => .ok (bytesOf4 a b c v.toNat ++ rest)))
  | 0, i, offset, h, hi => by omega
  | fuel + 1, i, offset, h, hi => by
    cases hd : data[i + 3]? with
    | none =>
      refine .inl ⟨.unknown "Missing at least 1 byte", by simp [base64Inner4, hd], ?_⟩
      simp [drop_eq_nil_of_none hd, b64Tokens_nil, b64Decode]
    | some x =>
      have hlt := (List.getElem?_eq_some_iff.mp hd).1
      rw [drop_eq_cons hd]
      by_cases hp : x = 61
      · subst hp
        refine .inr (.inl ⟨0, by simp [base64Inner4, hd], by omega, ?_⟩)
        rw [b64Tokens_cons_pad]; rfl
      cases hb : getValueEncoded x with
      | some v =>
        refine .inr (.inr ⟨0, v, by simp [base64Inner4, hd, hb, hp], getValueEncoded_lt _ _ hb,
          by omega, ?_⟩)
        rw [b64Tokens_cons_value _ hb]; rfl
      | none =>
        have e : base64Inner4 data (some b3) (fuel + 1) i offset =
            base64Inner4 data (some b3) fuel (i + 1) (offset + 1) := by
          simp [base64Inner4, hd, hb, hp]
        rw [e, b64Tokens_cons_skip _ hb hp]
        have a0 : i + 3 + 1 = i + 1 + 3 := by omega
        rw [a0]
        rcases base64Inner4_value_spec data a b c b3 fuel (i + 1) (offset + 1) (by omega)
          (by omega) with ⟨er, h1, h2⟩ | ⟨k, h1, h2, h3⟩ | ⟨k, v, h1, hv, h2, h3⟩
        · exact .inl ⟨er, h1, h2⟩
        · refine .inr (.inl ⟨k + 1, ?_, by omega, ?_⟩)
          · rw [h1, show i + 1 + k = i + (k + 1) by omega,
              show offset + 1 + k = offset + (k + 1) by omega]
          · have : i + (k + 1) + 4 = i + 1 + k + 4 := by omega
            rw [h3, this]
        · refine .inr (.inr ⟨k + 1, v, ?_, hv, by omega, ?_⟩)
          · rw [h1, show i + 1 + k = i + (k + 1) by omega,
              show offset + 1 + k = offset + (k + 1) by omega]
          · have : i + (k + 1) + 4 = i + 1 + k + 4 := by omega
            rw [h3, this]

/-! ### Arithmetic on bytes -/

/-- A fact about two 6-bit values can be checked exhaustively. -/
theorem forall_sextets {P : UInt8 → UInt8 → Prop}
    (h : ∀ n m : Fin 64, P (UInt8.ofNat n) (UInt8.ofNat m)) :
    ∀ a b : UInt8, a < 64 → b < 64 → P a b := by
  intro a b ha hb
  have := h ⟨a.toNat, UInt8.lt_iff_toNat_lt.mp ha⟩ ⟨b.toNat, UInt8.lt_iff_toNat_lt.mp hb⟩
  simpa using this

theorem decodeByte1 : ∀ a b : UInt8, a < 64 → b < 64 →
    addU8 (a <<< 2) ((b &&& 0b00110000) >>> 4) =
      .ok (UInt8.ofNat ((a.toNat * 64 + b.toNat) / 16)) :=
  forall_sextets (by decide +kernel)

theorem decodeByte2 : ∀ b c : UInt8, b < 64 → c < 64 →
    addU8 ((b &&& 0b00001111) <<< 4) ((c &&& 0b00111100) >>> 2) =
      .ok (UInt8.ofNat ((b.toNat * 64 + c.toNat) / 4 % 256)) :=
  forall_sextets (by decide +kernel)

theorem decodeByte3 : ∀ c d : UInt8, c < 64 → d < 64 →
    addU8 ((c &&& 0b00000011) <<< 6) d =
      .ok (UInt8.ofNat ((c.toNat * 64 + d.toNat) % 256)) :=
  forall_sextets (by decide +kernel)

theorem bytesOf3_eq (a b c : UInt8) (hc : c < 64) :
    bytesOf3 a.toNat b.toNat c.toNat =
      [UInt8.ofNat ((a.toNat * 64 + b.toNat) / 16),
       UInt8.ofNat ((b.toNat * 64 + c.toNat) / 4 % 256)] := by
  have h := UInt8.lt_iff_toNat_lt.mp hc
  have h64 : (64 : UInt8).toNat = 64 := rfl
  rw [h64] at h
  simp only [bytesOf3, List.cons.injEq, and_true]
  constructor <;> congr 1 <;> omega

theorem bytesOf4_eq (a b c d : UInt8) (hc : c < 64) (hd : d < 64) :
    bytesOf4 a.toNat b.toNat c.toNat d.toNat =
      [UInt8.ofNat ((a.toNat * 64 + b.toNat) / 16),
       UInt8.ofNat ((b.toNat * 64 + c.toNat) / 4 % 256),
       UInt8.ofNat ((c.toNat * 64 + d.toNat) % 256)] := by
  have h := UInt8.lt_iff_toNat_lt.mp hc
  have h' := UInt8.lt_iff_toNat_lt.mp hd
  have h64 : (64 : UInt8).toNat = 64 := rfl
  rw [h64] at h h'
  simp only [bytesOf4, List.cons.injEq, and_true]
  refine ⟨?_, ?_, ?_⟩ <;> congr 1 <;> omega

/-! ### The main loop -/

theorem take_set_of_le {α} (l : List α) (n m : Nat) (v : α) (h : n ≤ m) :
    (l.set m v).take n = l.take n := by
  rw [List.take_set]
  exact List.set_eq_of_length_le (by simp; omega)

theorem drop_set_of_lt' {α} (l : List α) (n m : Nat) (v : α) (h : m < n) :
    (l.set m v).drop n = l.drop n := by
  rw [List.drop_set_of_lt h]

theorem take_succ_set {α} (l : List α) (n : Nat) (v : α) (h : n < l.length) :
    (l.set n v).take (n + 1) = l.take n ++ [v] := by
  rw [List.take_succ_eq_append_getElem (by simpa using h), take_set_of_le _ _ _ _ (Nat.le_refl _)]
  simp

theorem base64Main_spec : ∀ fuel (data : Bytes) i offset, data.length < fuel + i →
    i ≤ data.length → offset ≤ i →
    base64Main fuel data i offset =
      (b64Decode .start (b64Tokens (data.drop i)) >>=
        fun rest => .ok (data.take (i - offset) ++ rest))
  | 0, data, i, offset, h, hi, ho => by omega
  | fuel + 1, data, i, offset, h, hi, ho => by
    unfold base64Main
    obtain ⟨k1, h1⟩ := base64Inner1_spec data (data.length + 1) i offset (by omega) hi
    rcases h1 with ⟨h1, _, e1⟩ | ⟨b1, h1, hb1, hk1, e1⟩
    · rw [h1, e1]
      have : i + k1 - (offset + k1) = i - offset := by omega
      simp [this, show offset + k1 ≤ i + k1 by omega]
    rw [h1, e1]
    simp only [ok_bind]
    rcases base64Inner2_spec data b1.toNat (data.length + 1) (i + k1) (offset + k1) (by omega) hk1
      with ⟨er, h2, e2⟩ | ⟨k2, b2, h2, hb2, hk2, e2⟩
    · rw [h2, e2]; rfl
    rw [h2, e2]
    simp only [ok_bind]
    rcases base64Inner3_spec data b1.toNat b2.toNat (data.length + 1) (i + k1 + k2)
      (offset + k1 + k2) (by omega) hk2
      with ⟨er, h3, e3⟩ | ⟨k3, h3, hk3, e3⟩ | ⟨k3, b3, h3, hb3, hk3, e3⟩
    · rw [h3, e3]; rfl
    · rw [h3, e3]
      simp only [ok_bind]
      rcases base64Inner4_pad_spec data b1.toNat b2.toNat (data.length + 1) (i + k1 + k2 + k3)
        (offset + k1 + k2 + k3) (by omega) hk3
        with ⟨er, h4, e4⟩ | ⟨k4, h4, hk4, e4⟩
      · rw [h4, e4]; rfl
      · rw [h4, e4]
        generalize hj : i + k1 + k2 + k3 + k4 = j at *
        generalize hq : offset + k1 + k2 + k3 + k4 = q at *
        have hqj : q ≤ j := by omega
        have hd : j - q = i - offset := by omega
        simp only [ok_bind, decodeByte1 b1 b2 hb1 hb2, setUnchecked, hqj, if_true,
          show j - q < data.length by omega]
        rw [base64Main_spec fuel _ (j + 4) (q + 2 + 1) (by simp; omega) (by simp; omega) (by omega)]
        rw [drop_set_of_lt' _ _ _ _ (by omega), outcome_bind_assoc]
        congr 1; funext rest
        simp only [ok_bind]
        have hi1 : j + 4 - (q + 2 + 1) = j - q + 1 := by omega
        rw [hi1, take_succ_set _ _ _ (by omega), hd]
        simp [bytesOf2]
    · rw [h3, e3]
      simp only [ok_bind]
      rcases base64Inner4_value_spec data b1.toNat b2.toNat b3.toNat b3 (data.length + 1)
        (i + k1 + k2 + k3) (offset + k1 + k2 + k3) (by omega) hk3
        with ⟨er, h4, e4⟩ | ⟨k4, h4, hk4, e4⟩ | ⟨k4, b4, h4, hb4, hk4, e4⟩
      · rw [h4, e4]; rfl
      · rw [h4, e4, bytesOf3_eq _ _ _ hb3]
        generalize hj : i + k1 + k2 + k3 + k4 = j at *
        generalize hq : offset + k1 + k2 + k3 + k4 = q at *
        have hqj : q ≤ j := by omega
        have hd : j - q = i - offset := by omega
        have hs : j + 1 - q = j - q + 1 := by omega
        simp only [ok_bind, decodeByte1 b1 b2 hb1 hb2, decodeByte2 b2 b3 hb2 hb3, setUnchecked,
          hqj, show q ≤ j + 1 by omega, if_true, hs, List.length_set,
          show j - q < data.length by omega, show j - q + 1 < data.length by omega]
        rw [base64Main_spec fuel _ (j + 4) (q + 1 + 1) (by simp; omega) (by simp; omega) (by omega)]
        rw [drop_set_of_lt' _ _ _ _ (by omega), drop_set_of_lt' _ _ _ _ (by omega),
          outcome_bind_assoc]
        congr 1; funext rest
        simp only [ok_bind]
        have hi1 : j + 4 - (q + 1 + 1) = j - q + 1 + 1 := by omega
        rw [hi1, take_succ_set _ _ _ (by simp; omega), take_succ_set _ _ _ (by omega), hd]
        simp
      · rw [h4, e4, bytesOf4_eq _ _ _ _ hb3 hb4]
        generalize hj : i + k1 + k2 + k3 + k4 = j at *
        generalize hq : offset + k1 + k2 + k3 + k4 = q at *
        have hqj : q ≤ j := by omega
        have hd : j - q = i - offset := by omega
        have hs : j + 1 - q = j - q + 1 := by omega
        have hs2 : j + 2 - q = j - q + 1 + 1 := by omega
        simp only [ok_bind, decodeByte1 b1 b2 hb1 hb2, decodeByte2 b2 b3 hb2 hb3,
          decodeByte3 b3 b4 hb3 hb4, setUnchecked,
          hqj, show q ≤ j + 1 by omega, show q ≤ j + 2 by omega, if_true, hs, hs2, List.length_set,
          show j - q < data.length by omega, show j - q + 1 < data.length by omega,
          show j - q + 1 + 1 < data.length by omega]
        rw [base64Main_spec fuel _ (j + 4) (q + 1) (by simp; omega) (by simp; omega) (by omega)]
        rw [drop_set_of_lt' _ _ _ _ (by omega), drop_set_of_lt' _ _ _ _ (by omega),
          drop_set_of_lt' _ _ _ _ (by omega), outcome_bind_assoc]
        congr 1; funext rest
        simp only [ok_bind]
        have hi1 : j + 4 - (q + 1) = j - q + 1 + 1 + 1 := by omega
        rw [hi1, take_succ_set _ _ _ (by simp; omega), take_succ_set _ _ _ (by simp; omega),
          take_succ_set _ _ _ (by omega), hd]
        simp

theorem decodeBase64_eq (data : Bytes) :
    decodeBase64 data = b64Decode .start (b64Tokens data) := by
  rw [decodeBase64, base64Main_spec _ _ _ _ (by omega) (by omega) (by omega)]
  rw [List.drop_zero]
  cases b64Decode .start (b64Tokens data) <;> simp

end EmailParser
