import Verif.Spec.Utf8
/-
The check for UTF-8 of the model accepts exactly the sequences of encoded scalar values.
-/
namespace EmailParser
open Spec

theorem utf8Encode_valid (n : Nat) (hn : Scalar n) (s : Bytes) :
    utf8Valid (utf8Encode n ++ s) = utf8Valid s := by
  unfold Scalar at hn
  unfold utf8Encode
  split
  · rw [List.cons_append, utf8Valid.eq_def]
    have : UInt8.ofNat n < 0x80 := by rw [UInt8.lt_iff_toNat_lt]; simp; omega
    simp [this]
  · split
    · rw [List.cons_append, utf8Valid.eq_def]
      have h1 : ¬ UInt8.ofNat (0xC0 + n / 64) < 0x80 := by rw [UInt8.lt_iff_toNat_lt]; simp; omega
      have h2 : ¬ UInt8.ofNat (0xC0 + n / 64) < 0xC2 := by rw [UInt8.lt_iff_toNat_lt]; simp; omega
      have h3 : UInt8.ofNat (0xC0 + n / 64) < 0xE0 := by rw [UInt8.lt_iff_toNat_lt]; simp; omega
      have h4 : utf8Valid.isCont (UInt8.ofNat (0x80 + n % 64)) = true := by
        simp [utf8Valid.isCont, UInt8.le_iff_toNat_le]; omega
      simp only [h1, h2, h3, h4, if_true, if_false, List.cons_append, List.nil_append, Bool.true_and]
    · split
      · rw [List.cons_append, utf8Valid.eq_def]
        have h1 : ¬ UInt8.ofNat (0xE0 + n / 4096) < 0x80 := by rw [UInt8.lt_iff_toNat_lt]; simp; omega
        have h2 : ¬ UInt8.ofNat (0xE0 + n / 4096) < 0xC2 := by rw [UInt8.lt_iff_toNat_lt]; simp; omega
        have h3 : ¬ UInt8.ofNat (0xE0 + n / 4096) < 0xE0 := by rw [UInt8.lt_iff_toNat_lt]; simp; omega
        have h4 : UInt8.ofNat (0xE0 + n / 4096) < 0xF0 := by rw [UInt8.lt_iff_toNat_lt]; simp; omega
        have h5 : utf8Valid.isCont (UInt8.ofNat (0x80 + n % 64)) = true := by
          simp [utf8Valid.isCont, UInt8.le_iff_toNat_le]; omega
        have h6 : (if UInt8.ofNat (0xE0 + n / 4096) == 0xE0 then
              0xA0 ≤ UInt8.ofNat (0x80 + n / 64 % 64) && UInt8.ofNat (0x80 + n / 64 % 64) ≤ 0xBF
            else if UInt8.ofNat (0xE0 + n / 4096) == 0xED then
              0x80 ≤ UInt8.ofNat (0x80 + n / 64 % 64) && UInt8.ofNat (0x80 + n / 64 % 64) ≤ 0x9F
            else utf8Valid.isCont (UInt8.ofNat (0x80 + n / 64 % 64))) = true := by
          simp only [utf8Valid.isCont, UInt8.le_iff_toNat_le, beq_iff_eq, ← UInt8.toNat_inj]
          simp
          split
          · omega
          · split <;> omega
        simp only [h1, h2, h3, h4, h5, if_true, if_false, List.cons_append, List.nil_append]
        rw [h6]; simp
      · rw [List.cons_append, utf8Valid.eq_def]
        have h1 : ¬ UInt8.ofNat (0xF0 + n / 262144) < 0x80 := by rw [UInt8.lt_iff_toNat_lt]; simp; omega
        have h2 : ¬ UInt8.ofNat (0xF0 + n / 262144) < 0xC2 := by rw [UInt8.lt_iff_toNat_lt]; simp; omega
        have h3 : ¬ UInt8.ofNat (0xF0 + n / 262144) < 0xE0 := by rw [UInt8.lt_iff_toNat_lt]; simp; omega
        have h4 : ¬ UInt8.ofNat (0xF0 + n / 262144) < 0xF0 := by rw [UInt8.lt_iff_toNat_lt]; simp; omega
        have h4' : UInt8.ofNat (0xF0 + n / 262144) < 0xF5 := by rw [UInt8.lt_iff_toNat_lt]; simp; omega
        have h5 : utf8Valid.isCont (UInt8.ofNat (0x80 + n % 64)) = true := by
          simp [utf8Valid.isCont, UInt8.le_iff_toNat_le]; omega
        have h5' : utf8Valid.isCont (UInt8.ofNat (0x80 + n / 64 % 64)) = true := by
          simp [utf8Valid.isCont, UInt8.le_iff_toNat_le]; omega
        have h6 : (if UInt8.ofNat (0xF0 + n / 262144) == 0xF0 then
              0x90 ≤ UInt8.ofNat (0x80 + n / 4096 % 64) && UInt8.ofNat (0x80 + n / 4096 % 64) ≤ 0xBF
            else if UInt8.ofNat (0xF0 + n / 262144) == 0xF4 then
              0x80 ≤ UInt8.ofNat (0x80 + n / 4096 % 64) && UInt8.ofNat (0x80 + n / 4096 % 64) ≤ 0x8F
            else utf8Valid.isCont (UInt8.ofNat (0x80 + n / 4096 % 64))) = true := by
          simp only [utf8Valid.isCont, UInt8.le_iff_toNat_le, beq_iff_eq, ← UInt8.toNat_inj]
          simp
          split
          · omega
          · split <;> omega
        simp only [h1, h2, h3, h4, h4', h5, h5', if_true, if_false, List.cons_append, List.nil_append]
        rw [h6]; simp

theorem utf8Valid_of (cs : List Nat) (h : ∀ n ∈ cs, Scalar n) (s : Bytes) :
    utf8Valid (cs.flatMap utf8Encode ++ s) = utf8Valid s := by
  induction cs with
  | nil => rfl
  | cons n cs ih =>
    rw [List.flatMap_cons, List.append_assoc, utf8Encode_valid n (h n (by simp)),
      ih fun m hm => h m (by simp [hm])]

theorem ofNat_utf8 {b : UInt8} {n : Nat} (h : n = b.toNat) : UInt8.ofNat n = b := by
  rw [h]; exact UInt8.ofNat_toNat

/-- A valid string is empty or begins with an encoded scalar value. -/
theorem utf8Valid_cons {s : Bytes} (h : utf8Valid s = true) (hne : s ≠ []) :
    ∃ n s', Scalar n ∧ s = utf8Encode n ++ s' ∧ utf8Valid s' = true := by
  rw [utf8Valid.eq_def] at h
  match s, hne with
  | b :: bs, _ =>
    dsimp only at h
    split at h
    · rename_i hb
      rw [UInt8.lt_iff_toNat_lt] at hb; simp at hb
      refine ⟨b.toNat, bs, .inl (by omega), ?_, h⟩
      simp [utf8Encode, hb]
    · rename_i hb0
      rw [UInt8.lt_iff_toNat_lt] at hb0; simp at hb0
      split at h
      · cases h
      · rename_i hb1
        rw [UInt8.lt_iff_toNat_lt] at hb1; simp at hb1
        split at h
        · rename_i hb2
          rw [UInt8.lt_iff_toNat_lt] at hb2; simp at hb2
          split at h
          · rename_i b1 bs _
            simp only [utf8Valid.isCont, Bool.and_eq_true, decide_eq_true_eq, UInt8.le_iff_toNat_le] at h
            obtain ⟨⟨h1, h2⟩, hv⟩ := h
            simp at h1 h2
            refine ⟨(b.toNat - 0xC0) * 64 + (b1.toNat - 0x80), bs, .inl (by omega), ?_, hv⟩
            unfold utf8Encode
            rw [if_neg (by omega), if_pos (by omega), ofNat_utf8 (b := b) (by omega),
              ofNat_utf8 (b := b1) (by omega)]
            rfl
          · cases h
        · rename_i hb2
          rw [UInt8.lt_iff_toNat_lt] at hb2; simp at hb2
          split at h
          · rename_i hb3
            rw [UInt8.lt_iff_toNat_lt] at hb3; simp at hb3
            split at h
            · rename_i b1 b2 bs _
              have hs : 128 ≤ b1.toNat ∧ b1.toNat ≤ 191 ∧ (b.toNat = 224 → 160 ≤ b1.toNat) ∧
                  (b.toNat = 237 → b1.toNat ≤ 159) ∧ 128 ≤ b2.toNat ∧ b2.toNat ≤ 191 ∧
                  utf8Valid bs = true := by
                simp only [utf8Valid.isCont, Bool.and_eq_true, decide_eq_true_eq,
                  UInt8.le_iff_toNat_le, beq_iff_eq, ← UInt8.toNat_inj] at h
                simp at h
                split at h
                · refine ⟨by omega, by omega, by omega, by omega, by omega, by omega, h.2⟩
                · split at h
                  · refine ⟨by omega, by omega, by omega, by omega, by omega, by omega, h.2⟩
                  · refine ⟨by omega, by omega, by omega, by omega, by omega, by omega, h.2⟩
              obtain ⟨h1, h2, h3, h4, h5, h6, hv⟩ := hs
              refine ⟨(b.toNat - 0xE0) * 4096 + (b1.toNat - 0x80) * 64 + (b2.toNat - 0x80), bs,
                by unfold Scalar; omega, ?_, hv⟩
              unfold utf8Encode
              rw [if_neg (by omega), if_neg (by omega), if_pos (by omega),
                ofNat_utf8 (b := b) (by omega), ofNat_utf8 (b := b1) (by omega),
                ofNat_utf8 (b := b2) (by omega)]
              rfl
            · cases h
          · rename_i hb3
            rw [UInt8.lt_iff_toNat_lt] at hb3; simp at hb3
            split at h
            · rename_i hb4
              rw [UInt8.lt_iff_toNat_lt] at hb4; simp at hb4
              split at h
              · rename_i b1 b2 b3 bs _
                have hs : 128 ≤ b1.toNat ∧ b1.toNat ≤ 191 ∧ (b.toNat = 240 → 144 ≤ b1.toNat) ∧
                    (b.toNat = 244 → b1.toNat ≤ 143) ∧ 128 ≤ b2.toNat ∧ b2.toNat ≤ 191 ∧
                    128 ≤ b3.toNat ∧ b3.toNat ≤ 191 ∧ utf8Valid bs = true := by
                  simp only [utf8Valid.isCont, Bool.and_eq_true, decide_eq_true_eq,
                    UInt8.le_iff_toNat_le, beq_iff_eq, ← UInt8.toNat_inj] at h
                  simp at h
                  split at h
                  · refine ⟨by omega, by omega, by omega, by omega, by omega, by omega, by omega, by omega, h.2⟩
                  · split at h
                    · refine ⟨by omega, by omega, by omega, by omega, by omega, by omega, by omega, by omega, h.2⟩
                    · refine ⟨by omega, by omega, by omega, by omega, by omega, by omega, by omega, by omega, h.2⟩
                obtain ⟨h1, h2, h3, h4, h5, h6, h7, h8, hv⟩ := hs
                refine ⟨(b.toNat - 0xF0) * 262144 + (b1.toNat - 0x80) * 4096 +
                  (b2.toNat - 0x80) * 64 + (b3.toNat - 0x80), bs, by unfold Scalar; omega, ?_, hv⟩
                unfold utf8Encode
                rw [if_neg (by omega), if_neg (by omega), if_neg (by omega),
                  ofNat_utf8 (b := b) (by omega), ofNat_utf8 (b := b1) (by omega),
                  ofNat_utf8 (b := b2) (by omega), ofNat_utf8 (b := b3) (by omega)]
                rfl
              · cases h
            · cases h

theorem utf8Encode_ne (n : Nat) : utf8Encode n ≠ [] := by
  unfold utf8Encode
  repeat' split
  all_goals simp

/-- The check accepts exactly UTF-8. -/
theorem utf8Valid_iff (s : Bytes) : utf8Valid s = true ↔ Utf8 s := by
  constructor
  · intro h
    by_cases hne : s = []
    · subst hne; exact ⟨[], by simp, rfl⟩
    · obtain ⟨n, s', hn, hs, hv⟩ := utf8Valid_cons h hne
      have : s'.length < s.length := by
        have := List.length_pos_iff.2 (utf8Encode_ne n)
        rw [hs, List.length_append]; omega
      obtain ⟨cs, hcs, h'⟩ := (utf8Valid_iff s').1 hv
      refine ⟨n :: cs, fun m hm => ?_, by rw [List.flatMap_cons, ← h', hs]⟩
      rcases List.mem_cons.1 hm with rfl | hm
      · exact hn
      · exact hcs m hm
  · rintro ⟨cs, hcs, rfl⟩
    have := utf8Valid_of cs hcs []
    rwa [List.append_nil] at this
termination_by s.length

theorem Spec.Utf8.append {u v : Bytes} (hu : Utf8 u) (hv : Utf8 v) : Utf8 (u ++ v) := by
  obtain ⟨cs, h, rfl⟩ := hu
  obtain ⟨ds, h', rfl⟩ := hv
  refine ⟨cs ++ ds, fun n hn => ?_, by simp⟩
  rcases List.mem_append.1 hn with hn | hn
  · exact h n hn
  · exact h' n hn

end EmailParser
