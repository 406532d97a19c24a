import Verif.Model.TimedCodecs
import Verif.Proofs.Timed.Lines
import Verif.Proofs.QuotedPrintable
/-
The counting codecs have the same outcomes as the codecs, and bounds of their costs.
-/
namespace EmailParser.Timed

variable {α β γ : Type}

/-! ### The same outcomes -/

@[simp] theorem vecInsert_out (d : Bytes) (i : Nat) (v : UInt8) :
    (vecInsert d i v).out = EmailParser.vecInsert d i v := tick_of rfl
@[simp] theorem vecRemove_out (d : Bytes) (i : Nat) : (vecRemove d i).out = EmailParser.vecRemove d i := tick_of rfl
@[simp] theorem vecSet_out (d : Bytes) (i : Nat) (v : UInt8) : (vecSet d i v).out = EmailParser.vecSet d i v :=
  tick_of rfl
@[simp] theorem vecDrain_out (d : Bytes) (a b : Nat) : (vecDrain d a b).out = EmailParser.vecDrain d a b :=
  tick_of rfl
@[simp] theorem vecErase_out (d : Bytes) (i : Nat) : (vecErase d i).out = EmailParser.vecErase d i := tick_of rfl
@[simp] theorem getUncheckedMutSet_out (d : Bytes) (i : Nat) (v : UInt8) :
    (getUncheckedMutSet d i v).out = EmailParser.getUncheckedMutSet d i v := tick_of rfl
@[simp] theorem setUnchecked_out (d : Bytes) (i o : Nat) (v : UInt8) :
    (setUnchecked d i o v).out = EmailParser.setUnchecked d i o v := tick_of rfl

@[simp] theorem putReplacement_out (d : Bytes) (i : Nat) :
    (putReplacement d i).out = EmailParser.putReplacement d i :=
  bind_of (vecSet_out ..) fun _ => bind_of (vecInsert_out ..) fun _ => vecInsert_out ..

theorem decodeQpLoop_out (n : Nat) : ∀ d i, (decodeQpLoop n d i).out = EmailParser.decodeQpLoop n d i := by
  induction n with
  | zero => intro d i; rfl
  | succ n ih =>
    intro d i
    refine tick_of ?_
    unfold EmailParser.decodeQpLoop
    cases d[i]? with
    | none => rfl
    | some b =>
      refine ite_of (ih ..) (ite_of (ite_of (bind_of (vecDrain_out ..) fun _ => ih ..) (ite_of ?_ (ih ..)))
        (ite_of (ih ..) (bind_of (putReplacement_out ..) fun _ => ih ..)))
      refine bind_of (vecRemove_out ..) fun ⟨x, _⟩ => bind_of (vecRemove_out ..) fun ⟨y, _⟩ => ?_
      dsimp only
      generalize fromHex x = x
      generalize fromHex y = y
      cases x <;> cases y <;> first
        | exact bind_of (putReplacement_out ..) fun _ => ih ..
        | exact bind_of rfl fun _ => bind_of (vecSet_out ..) fun _ => ih ..

theorem decodeHeaderQpLoop_out (n : Nat) : ∀ d i,
    (decodeHeaderQpLoop n d i).out = EmailParser.decodeHeaderQpLoop n d i := by
  induction n with
  | zero => intro d i; rfl
  | succ n ih =>
    intro d i
    refine tick_of ?_
    unfold EmailParser.decodeHeaderQpLoop
    cases d[i]? with
    | none => rfl
    | some b =>
      refine ite_of (bind_of (vecSet_out ..) fun _ => ih ..)
        (ite_of (ite_of (bind_of (vecDrain_out ..) fun _ => ih ..) (ite_of ?_ (ih ..)))
        (ite_of (ih ..) (bind_of (putReplacement_out ..) fun _ => ih ..)))
      refine bind_of (vecRemove_out ..) fun ⟨x, _⟩ => bind_of (vecRemove_out ..) fun ⟨y, _⟩ => ?_
      dsimp only
      generalize fromHex x = x
      generalize fromHex y = y
      cases x <;> cases y <;> first
        | exact bind_of (putReplacement_out ..) fun _ => ih ..
        | exact bind_of rfl fun _ => bind_of (vecSet_out ..) fun _ => ih ..

theorem encodeQpLoop_out (n : Nat) : ∀ d i l,
    (encodeQpLoop n d i l).out = EmailParser.encodeQpLoop n d i l := by
  induction n with
  | zero => intro d i l; rfl
  | succ n ih =>
    intro d i l
    refine tick_of ?_
    unfold EmailParser.encodeQpLoop
    cases d[i]? with
    | none => rfl
    | some b =>
      refine ite_of (bind_of (vecInsert_out ..) fun _ => bind_of (vecInsert_out ..) fun _ =>
        bind_of (vecInsert_out ..) fun _ => bind_of rfl fun ⟨d, i, l⟩ => ?_) (bind_of rfl fun ⟨d, i, l⟩ => ?_) <;>
      exact ite_of (ih ..) (ite_of (ih ..) (ite_of (ih ..) (bind_of (vecRemove_out ..) fun _ => bind_of rfl fun _ =>
        bind_of (vecInsert_out ..) fun _ => bind_of rfl fun _ => bind_of (vecInsert_out ..) fun _ =>
        bind_of (vecInsert_out ..) fun _ => ih ..)))

theorem base64Inner1_out (d : Bytes) (n : Nat) : ∀ i o,
    (base64Inner1 d n i o).out = EmailParser.base64Inner1 d n i o := by
  induction n with
  | zero => intro i o; rfl
  | succ n ih =>
    intro i o
    refine tick_of ?_
    unfold EmailParser.base64Inner1
    cases d[i]? with
    | none => rfl
    | some b => cases hv : getValueEncoded b <;> simp only [hv] <;> first | rfl | exact ih ..

theorem base64Inner2_out (d : Bytes) (n : Nat) : ∀ i o,
    (base64Inner2 d n i o).out = EmailParser.base64Inner2 d n i o := by
  induction n with
  | zero => intro i o; rfl
  | succ n ih =>
    intro i o
    refine tick_of ?_
    unfold EmailParser.base64Inner2
    cases d[i + 1]? with
    | none => rfl
    | some b => cases hv : getValueEncoded b <;> simp only [hv] <;> first | rfl | exact ih ..

theorem base64Inner3_out (d : Bytes) (n : Nat) : ∀ i o,
    (base64Inner3 d n i o).out = EmailParser.base64Inner3 d n i o := by
  induction n with
  | zero => intro i o; rfl
  | succ n ih =>
    intro i o
    refine tick_of ?_
    unfold EmailParser.base64Inner3
    cases d[i + 2]? with
    | none => rfl
    | some b =>
      refine ite_of rfl ?_
      cases getValueEncoded b <;> first | rfl | exact ih ..

theorem base64Inner4_out (d : Bytes) (b3 : Option UInt8) (n : Nat) : ∀ i o,
    (base64Inner4 d b3 n i o).out = EmailParser.base64Inner4 d b3 n i o := by
  induction n with
  | zero => intro i o; rfl
  | succ n ih =>
    intro i o
    refine tick_of ?_
    unfold EmailParser.base64Inner4
    cases d[i + 3]? with
    | none => rfl
    | some b =>
      refine ite_of rfl (ite_of rfl ?_)
      cases getValueEncoded b <;> first | rfl | exact ih ..

theorem base64Main_out (n : Nat) : ∀ d i o, (base64Main n d i o).out = EmailParser.base64Main n d i o := by
  induction n with
  | zero => intro d i o; rfl
  | succ n ih =>
    intro d i o
    refine tick_of (bind_of (base64Inner1_out ..) fun ⟨i, o, b1⟩ => ?_)
    cases b1 with
    | none => exact ite_of rfl rfl
    | some b1 =>
      refine bind_of (base64Inner2_out ..) fun ⟨i, o, b2⟩ => bind_of (base64Inner3_out ..) fun ⟨i, o, b3⟩ =>
        bind_of (base64Inner4_out ..) fun ⟨i, o, b4⟩ => bind_of rfl fun _ => bind_of (setUnchecked_out ..) fun _ => ?_
      cases b3 with
      | none => exact ih ..
      | some b3 =>
        refine bind_of rfl fun _ => bind_of (setUnchecked_out ..) fun _ => ?_
        cases b4 with
        | none => exact ih ..
        | some b4 => exact bind_of rfl fun _ => bind_of (setUnchecked_out ..) fun _ => ih ..

theorem encodeBase64Loop_out : ∀ (s : Bytes) (l : Nat),
    (encodeBase64Loop l s).out = EmailParser.encodeBase64Loop l s
  | [], l => rfl
  | [a], l => by
    unfold encodeBase64Loop EmailParser.encodeBase64Loop
    exact tick_of (bind_of rfl fun _ => bind_of rfl fun _ => rfl)
  | [a, b], l => by
    unfold encodeBase64Loop EmailParser.encodeBase64Loop
    exact tick_of (bind_of rfl fun _ => bind_of rfl fun _ => bind_of rfl fun _ => bind_of rfl fun _ => rfl)
  | a :: b :: c :: s, l => by
    unfold encodeBase64Loop EmailParser.encodeBase64Loop
    exact tick_of (bind_of rfl fun _ => bind_of rfl fun _ => bind_of rfl fun _ => bind_of rfl fun _ =>
      bind_of rfl fun _ => bind_of rfl fun _ => bind_of (encodeBase64Loop_out s _) fun _ => rfl)

theorem percentStep_out (d : Bytes) (p : Nat) : (percentStep d p).out = EmailParser.percentStep d p := by
  unfold percentStep EmailParser.percentStep
  generalize d[p + 1]? = x
  generalize d[p + 2]? = y
  cases x <;> cases y <;> try rfl
  rename_i x y
  dsimp only
  generalize fromHex x = x
  generalize fromHex y = y
  cases x <;> cases y <;> try rfl
  exact bind_of rfl fun _ => bind_of (getUncheckedMutSet_out ..) fun _ => bind_of (vecErase_out ..) fun _ =>
    vecErase_out ..

theorem percentLoop_out (ps : List Nat) : ∀ d, (percentLoop d ps).out = EmailParser.percentLoop d ps := by
  induction ps with
  | nil => intro d; rfl
  | cons p ps ih => intro d; exact tick_of (bind_of (percentStep_out ..) fun _ => ih _)

theorem decodeParameter_out (c : Cfg) (d s : Bytes) :
    (decodeParameter c d s).out = EmailParser.decodeParameter c d s := by
  refine tick_of (ite_of rfl (bind_of (percentLoop_out ..) fun d => ?_))
  generalize decodeCharset c s d = x
  cases x <;> rfl

/-! ### Bounds -/

theorem within_vecInsert (d : Bytes) (i : Nat) (v : UInt8) : Within (vecInsert d i v) 0
    (fun d' k => i ≤ d.length ∧ d'.length = d.length + 1 ∧ k = d.length - i + 1)
    fun k => k = d.length - i + 1 := by
  refine within_tick.mpr (within_lift (fun d' h => ?_) (by omega))
  unfold EmailParser.vecInsert at h
  split at h
  · cases h
    simp
    omega
  · cases h

theorem within_vecRemove (d : Bytes) (i : Nat) : Within (vecRemove d i) 0
    (fun d' k => i < d.length ∧ d'.2.length + 1 = d.length ∧ k + i = d.length)
    fun k => k ≤ d.length - i + 1 := by
  refine within_tick.mpr (within_lift (fun d' h => ?_) (by omega))
  unfold EmailParser.vecRemove at h
  split at h
  · rename_i v e
    obtain ⟨hi, -⟩ := List.getElem?_eq_some_iff.mp e
    cases h
    simp
    omega
  · cases h

theorem within_vecSet (d : Bytes) (i : Nat) (v : UInt8) : Within (vecSet d i v) 0
    (fun d' k => i < d.length ∧ d'.length = d.length ∧ k = 1) fun k => k = 1 := by
  refine within_tick.mpr (within_lift (fun d' h => ?_) (by omega))
  unfold EmailParser.vecSet at h
  split at h
  · cases h
    simp
    omega
  · cases h

theorem within_vecDrain (d : Bytes) (a b : Nat) : Within (vecDrain d a b) 0
    (fun d' k => a ≤ b ∧ b ≤ d.length ∧ d'.length + (b - a) = d.length ∧ k = d.length - b + 1)
    fun k => k = d.length - b + 1 := by
  refine within_tick.mpr (within_lift (fun d' h => ?_) (by omega))
  unfold EmailParser.vecDrain at h
  split at h
  · cases h
    simp
    omega
  · cases h

theorem within_putReplacement (d : Bytes) (i : Nat) : Within (putReplacement d i) 0
    (fun d' k => i < d.length ∧ d'.length = d.length + 2 ∧ k = 2 * (d.length - i) + 4)
    fun k => k ≤ 2 * (d.length - i) + 4 := by
  refine .bind (within_vecSet ..) (fun d1 k1 _ ⟨h1, h2, h3⟩ => ?_) fun _ _ _ => by omega
  refine .bind (within_vecInsert ..) (fun d2 k2 _ ⟨h4, h5, h6⟩ => ?_) fun _ _ _ => by omega
  exact (within_vecInsert ..).use (fun d3 k3 _ ⟨h7, h8, h9⟩ => by omega) fun _ _ _ => by omega

theorem sq_succ (n : Nat) : sq (n + 1) = sq n + 2 * n + 3 := by
  unfold sq
  rw [show n + 1 + 1 = (n + 1) + 1 from rfl, Nat.succ_mul, Nat.mul_succ]
  omega

/-- One byte less remains. -/
theorem sq_drop {r m : Nat} (h : m < r) : sq m + 2 * r + 1 ≤ sq r := by
  obtain ⟨r, rfl⟩ : ∃ k, r = k + 1 := ⟨r - 1, by omega⟩
  have := sq_mono (show m ≤ r by omega)
  rw [sq_succ]
  omega

theorem within_decodeQpLoop (n : Nat) : ∀ d i, Within (decodeQpLoop n d i) 0
    (fun _ k => k ≤ 3 * sq (d.length - i)) fun k => k ≤ 3 * sq (d.length - i) := by
  induction n with
  | zero => intro d i; exact Nat.zero_le _
  | succ n ih =>
    intro d i
    refine within_tick.mpr ?_
    have h0 := sq_pos (d.length - i)
    cases e : d[i]? with
    | none => exact within_ok.mpr (by omega)
    | some b =>
      obtain ⟨hi, -⟩ := List.getElem?_eq_some_iff.mp e
      have go : ∀ d' i' k, d'.length - i' < d.length - i → k ≤ 6 * (d.length - i) + 3 →
          Within (decodeQpLoop n d' i') k (fun _ k => k ≤ 3 * sq (d.length - i))
            fun k => k ≤ 3 * sq (d.length - i) := by
        intro d' i' k h1 h2
        have := sq_drop h1
        exact (ih d' i').use (fun _ _ _ h => by omega) fun _ _ h => by omega
      have hb := @sq_drop (d.length - i) (d.length - i - 1) (by omega)
      dsimp only
      split
      · exact go _ _ _ (by omega) (by omega)
      · split
        · split
          · refine .bind (within_vecDrain ..) (fun d1 k1 _ ⟨h1, h2, h3, h4⟩ => ?_) fun _ _ _ => by omega
            exact go _ _ _ (by omega) (by omega)
          · split
            · refine .bind (within_vecRemove ..) (fun d1 k1 _ ⟨h1, h2, h3⟩ => ?_) fun _ _ _ => by omega
              refine .bind (within_vecRemove ..) (fun d2 k2 _ ⟨h4, h5, h6⟩ => ?_) fun _ _ _ => by omega
              split
              · refine within_bind.mpr (within_lift (fun v _ => ?_) (by omega))
                refine .bind (within_vecSet ..) (fun d3 k3 _ ⟨h7, h8, h9⟩ => ?_) fun _ _ _ => by omega
                exact go _ _ _ (by omega) (by omega)
              · refine .bind (within_putReplacement ..) (fun d3 k3 _ ⟨h7, h8, h9⟩ => ?_) fun _ _ _ => by omega
                exact go _ _ _ (by omega) (by omega)
            · exact go _ _ _ (by omega) (by omega)
        · split
          · exact go _ _ _ (by omega) (by omega)
          · refine .bind (within_putReplacement ..) (fun d3 k3 _ ⟨h7, h8, h9⟩ => ?_) fun _ _ _ => by omega
            exact go _ _ _ (by omega) (by omega)

theorem within_decodeHeaderQpLoop (n : Nat) : ∀ d i, Within (decodeHeaderQpLoop n d i) 0
    (fun _ k => k ≤ 3 * sq (d.length - i)) fun k => k ≤ 3 * sq (d.length - i) := by
  induction n with
  | zero => intro d i; exact Nat.zero_le _
  | succ n ih =>
    intro d i
    refine within_tick.mpr ?_
    have h0 := sq_pos (d.length - i)
    cases e : d[i]? with
    | none => exact within_ok.mpr (by omega)
    | some b =>
      obtain ⟨hi, -⟩ := List.getElem?_eq_some_iff.mp e
      have go : ∀ d' i' k, d'.length - i' < d.length - i → k ≤ 6 * (d.length - i) + 3 →
          Within (decodeHeaderQpLoop n d' i') k (fun _ k => k ≤ 3 * sq (d.length - i))
            fun k => k ≤ 3 * sq (d.length - i) := by
        intro d' i' k h1 h2
        have := sq_drop h1
        exact (ih d' i').use (fun _ _ _ h => by omega) fun _ _ h => by omega
      have hb := @sq_drop (d.length - i) (d.length - i - 1) (by omega)
      dsimp only
      split
      · refine .bind (within_vecSet ..) (fun d3 k3 _ ⟨h7, h8, h9⟩ => ?_) fun _ _ _ => by omega
        exact go _ _ _ (by omega) (by omega)
      · split
        · split
          · refine .bind (within_vecDrain ..) (fun d1 k1 _ ⟨h1, h2, h3, h4⟩ => ?_) fun _ _ _ => by omega
            exact go _ _ _ (by omega) (by omega)
          · split
            · refine .bind (within_vecRemove ..) (fun d1 k1 _ ⟨h1, h2, h3⟩ => ?_) fun _ _ _ => by omega
              refine .bind (within_vecRemove ..) (fun d2 k2 _ ⟨h4, h5, h6⟩ => ?_) fun _ _ _ => by omega
              split
              · refine within_bind.mpr (within_lift (fun v _ => ?_) (by omega))
                refine .bind (within_vecSet ..) (fun d3 k3 _ ⟨h7, h8, h9⟩ => ?_) fun _ _ _ => by omega
                exact go _ _ _ (by omega) (by omega)
              · refine .bind (within_putReplacement ..) (fun d3 k3 _ ⟨h7, h8, h9⟩ => ?_) fun _ _ _ => by omega
                exact go _ _ _ (by omega) (by omega)
            · exact go _ _ _ (by omega) (by omega)
        · split
          · exact go _ _ _ (by omega) (by omega)
          · refine .bind (within_putReplacement ..) (fun d3 k3 _ ⟨h7, h8, h9⟩ => ?_) fun _ _ _ => by omega
            exact go _ _ _ (by omega) (by omega)

theorem within_encodeQpLoop (n : Nat) : ∀ d i l, Within (encodeQpLoop n d i l) 0
    (fun _ k => k ≤ 6 * sq (d.length - i)) fun k => k ≤ 6 * sq (d.length - i) := by
  induction n with
  | zero => intro d i l; exact Nat.zero_le _
  | succ n ih =>
    intro d i l
    refine within_tick.mpr ?_
    have h0 := sq_pos (d.length - i)
    cases e : d[i]? with
    | none => exact within_ok.mpr (by omega)
    | some b =>
      obtain ⟨hi, -⟩ := List.getElem?_eq_some_iff.mp e
      have go : ∀ d' i' l' k, d'.length - i' < d.length - i → k ≤ 12 * (d.length - i) + 6 →
          Within (encodeQpLoop n d' i' l') k (fun _ k => k ≤ 6 * sq (d.length - i))
            fun k => k ≤ 6 * sq (d.length - i) := by
        intro d' i' l' k h1 h2
        have := sq_drop h1
        exact (ih d' i' l').use (fun _ _ _ h => by omega) fun _ _ h => by omega
      have hb := @sq_drop (d.length - i) (d.length - i - 1) (by omega)
      have rest : ∀ (d' : Bytes) (i' l' k : Nat), d'.length - i' = d.length - i → k ≤ 3 * (d.length - i) + 7 →
          Within (if litteralReprPossible b then encodeQpLoop n d' (i' + 1) (l' + 1)
            else if (b == 9 || b == 32) && (d'[i' + 1]?.map (fun c => c != 13)).getD false then
              encodeQpLoop n d' (i' + 1) (l' + 1)
            else if b == 13 && d'[i' + 1]? == some 10 then encodeQpLoop n d' (i' + 2) 0
            else do
              let (_, d') ← vecRemove d' i'
              let low ← lift (toHex (b % 16))
              let d' ← vecInsert d' i' low
              let high ← lift (toHex ((b - b % 16) / 16))
              let d' ← vecInsert d' i' high
              let d' ← vecInsert d' i' 61
              encodeQpLoop n d' (i' + 3) (l' + 3)) k (fun _ k => k ≤ 6 * sq (d.length - i))
            fun k => k ≤ 6 * sq (d.length - i) := by
        intro d' i' l' k h1 h2
        split
        · exact go _ _ _ _ (by omega) (by omega)
        split
        · exact go _ _ _ _ (by omega) (by omega)
        split
        · exact go _ _ _ _ (by omega) (by omega)
        refine .bind (within_vecRemove ..) (fun d1 k1 _ ⟨h3, h4, h5⟩ => ?_) fun _ _ _ => by omega
        refine within_bind.mpr (within_lift (fun v _ => ?_) (by omega))
        refine .bind (within_vecInsert ..) (fun d2 k2 _ ⟨h6, h7, h8⟩ => ?_) fun _ _ _ => by omega
        refine within_bind.mpr (within_lift (fun v _ => ?_) (by omega))
        refine .bind (within_vecInsert ..) (fun d3 k3 _ ⟨h9, h10, h11⟩ => ?_) fun _ _ _ => by omega
        refine .bind (within_vecInsert ..) (fun d4 k4 _ ⟨h12, h13, h14⟩ => ?_) fun _ _ _ => by omega
        exact go _ _ _ _ (by omega) (by omega)
      dsimp only
      split
      · refine .bind (within_vecInsert ..) (fun d1 k1 _ ⟨h3, h4, h5⟩ => ?_) fun _ _ _ => by omega
        refine .bind (within_vecInsert ..) (fun d2 k2 _ ⟨h6, h7, h8⟩ => ?_) fun _ _ _ => by omega
        refine .bind (within_vecInsert ..) (fun d3 k3 _ ⟨h9, h10, h11⟩ => ?_) fun _ _ _ => by omega
        exact within_bind.mpr (within_ok.mpr (rest d3 (i + 3) 0 _ (by omega) (by omega)))
      · exact within_bind.mpr (within_ok.mpr (rest d i l _ (by omega) (by omega)))

/-! ### Base64 -/

theorem within_base64Inner1 (d : Bytes) (n : Nat) : ∀ i o, i ≤ d.length → Within (base64Inner1 d n i o) 0
    (fun r k => i ≤ r.1 ∧ r.1 ≤ d.length ∧ k = r.1 - i + 1) fun k => k ≤ d.length - i + 1 := by
  induction n with
  | zero => intro i o h; exact Nat.zero_le _
  | succ n ih =>
    intro i o h
    refine within_tick.mpr ?_
    cases e : d[i]? with
    | none => exact within_ok.mpr (by simp; omega)
    | some b =>
      obtain ⟨hi, -⟩ := List.getElem?_eq_some_iff.mp e
      dsimp only
      cases getValueEncoded b with
      | some v => exact within_ok.mpr (by simp; omega)
      | none => exact (ih (i + 1) (o + 1) (by omega)).use (fun _ _ _ _ => by omega) fun _ _ _ => by omega

theorem within_base64Inner2 (d : Bytes) (n : Nat) : ∀ i o, i ≤ d.length → Within (base64Inner2 d n i o) 0
    (fun r k => i ≤ r.1 ∧ r.1 + 1 < d.length ∧ k = r.1 - i + 1) fun k => k ≤ d.length - i + 1 := by
  induction n with
  | zero => intro i o h; exact Nat.zero_le _
  | succ n ih =>
    intro i o h
    refine within_tick.mpr ?_
    cases e : d[i + 1]? with
    | none => exact within_err.mpr (by omega)
    | some b =>
      obtain ⟨hi, -⟩ := List.getElem?_eq_some_iff.mp e
      dsimp only
      cases getValueEncoded b with
      | some v => exact within_ok.mpr (by simp; omega)
      | none => exact (ih (i + 1) (o + 1) (by omega)).use (fun _ _ _ _ => by omega) fun _ _ _ => by omega

theorem within_base64Inner3 (d : Bytes) (n : Nat) : ∀ i o, i ≤ d.length → Within (base64Inner3 d n i o) 0
    (fun r k => i ≤ r.1 ∧ r.1 + 2 < d.length ∧ k = r.1 - i + 1) fun k => k ≤ d.length - i + 1 := by
  induction n with
  | zero => intro i o h; exact Nat.zero_le _
  | succ n ih =>
    intro i o h
    refine within_tick.mpr ?_
    cases e : d[i + 2]? with
    | none => exact within_err.mpr (by omega)
    | some b =>
      obtain ⟨hi, -⟩ := List.getElem?_eq_some_iff.mp e
      dsimp only
      split
      · exact within_ok.mpr (by simp; omega)
      cases getValueEncoded b with
      | some v => exact within_ok.mpr (by simp; omega)
      | none => exact (ih (i + 1) (o + 1) (by omega)).use (fun _ _ _ _ => by omega) fun _ _ _ => by omega

theorem within_base64Inner4 (d : Bytes) (b3 : Option UInt8) (n : Nat) : ∀ i o, i ≤ d.length →
    Within (base64Inner4 d b3 n i o) 0
    (fun r k => i ≤ r.1 ∧ r.1 + 3 < d.length ∧ k = r.1 - i + 1) fun k => k ≤ d.length - i + 1 := by
  induction n with
  | zero => intro i o h; exact Nat.zero_le _
  | succ n ih =>
    intro i o h
    refine within_tick.mpr ?_
    cases e : d[i + 3]? with
    | none => exact within_err.mpr (by omega)
    | some b =>
      obtain ⟨hi, -⟩ := List.getElem?_eq_some_iff.mp e
      dsimp only
      split
      · exact within_ok.mpr (by simp; omega)
      split
      · exact within_err.mpr (by omega)
      cases getValueEncoded b with
      | some v => exact within_ok.mpr (by simp; omega)
      | none => exact (ih (i + 1) (o + 1) (by omega)).use (fun _ _ _ _ => by omega) fun _ _ _ => by omega

theorem within_setUnchecked (d : Bytes) (i o : Nat) (v : UInt8) : Within (setUnchecked d i o v) 0
    (fun d' k => d'.length = d.length ∧ k = 1) fun k => k = 1 := by
  refine within_tick.mpr (within_lift (fun d' h => ?_) (by omega))
  unfold EmailParser.setUnchecked at h
  split at h
  · split at h
    · cases h
      simp
    · cases h
  · cases h

theorem within_base64Main (n : Nat) : ∀ d i o, i ≤ d.length → Within (base64Main n d i o) 0
    (fun _ k => k ≤ 2 * (d.length - i) + 6) fun k => k ≤ 2 * (d.length - i) + 6 := by
  induction n with
  | zero => intro d i o _; exact Nat.zero_le _
  | succ n ih =>
    intro d i o hi
    refine within_tick.mpr (.bind (within_base64Inner1 _ _ _ _ hi) (fun ⟨i1, o1, b1⟩ k1 _ ⟨h1, h2, h3⟩ => ?_)
      fun _ _ _ => by omega)
    dsimp only at h1 h2 h3
    cases b1 with
    | none =>
      dsimp only
      split
      · exact within_ok.mpr (by omega)
      · exact within_abort.mpr (by omega)
    | some b1 =>
      refine .bind (within_base64Inner2 _ _ _ _ h2) (fun ⟨i2, o2, b2⟩ k2 _ ⟨h4, h5, h6⟩ => ?_) fun _ _ _ => by omega
      dsimp only at h4 h5 h6
      refine .bind (within_base64Inner3 _ _ _ _ (by omega)) (fun ⟨i3, o3, b3⟩ k3 _ ⟨h7, h8, h9⟩ => ?_)
        fun _ _ _ => by omega
      dsimp only at h7 h8 h9
      refine .bind (within_base64Inner4 _ _ _ _ _ (by omega)) (fun ⟨i4, o4, b4⟩ k4 _ ⟨h10, h11, h12⟩ => ?_)
        fun _ _ _ => by omega
      dsimp only at h10 h11 h12
      refine within_bind.mpr (within_lift (fun _ _ => ?_) (by omega))
      refine .bind (within_setUnchecked ..) (fun d1 k5 _ ⟨h13, h14⟩ => ?_) fun _ _ _ => by omega
      have go : ∀ (d' : Bytes) (o' k : Nat), d'.length = d.length → k ≤ 2 * (i4 + 4 - i) →
          Within (base64Main n d' (i4 + 4) o') k (fun _ k => k ≤ 2 * (d.length - i) + 6)
            fun k => k ≤ 2 * (d.length - i) + 6 := by
        intro d' o' k h1 h2
        exact (ih d' (i4 + 4) o' (by omega)).use (fun _ _ _ h => by omega) fun _ _ h => by omega
      cases b3 with
      | none => exact go _ _ _ (by omega) (by omega)
      | some b3 =>
        refine within_bind.mpr (within_lift (fun _ _ => ?_) (by omega))
        refine .bind (within_setUnchecked ..) (fun d2 k6 _ ⟨h15, h16⟩ => ?_) fun _ _ _ => by omega
        cases b4 with
        | none => exact go _ _ _ (by omega) (by omega)
        | some b4 =>
          refine within_bind.mpr (within_lift (fun _ _ => ?_) (by omega))
          refine .bind (within_setUnchecked ..) (fun d3 k7 _ ⟨h17, h18⟩ => ?_) fun _ _ _ => by omega
          exact go _ _ _ (by omega) (by omega)

theorem within_encodeBase64Loop : ∀ (s : Bytes) (l : Nat), Within (encodeBase64Loop l s) 0
    (fun _ k => k = (s.length + 2) / 3) fun k => k ≤ (s.length + 2) / 3
  | [], l => rfl
  | [a], l => by
    unfold encodeBase64Loop
    refine within_tick.mpr ?_
    repeat first
      | exact within_ok.mpr (by simp)
      | refine within_bind.mpr (within_lift (fun _ _ => ?_) (by simp <;> omega))
  | [a, b], l => by
    unfold encodeBase64Loop
    refine within_tick.mpr ?_
    repeat first
      | exact within_ok.mpr (by simp)
      | refine within_bind.mpr (within_lift (fun _ _ => ?_) (by simp <;> omega))
  | a :: b :: c :: s, l => by
    unfold encodeBase64Loop
    refine within_tick.mpr ?_
    refine within_bind.mpr (within_lift (fun _ _ => ?_) (by simp <;> omega))
    refine within_bind.mpr (within_lift (fun _ _ => ?_) (by simp <;> omega))
    refine within_bind.mpr (within_lift (fun _ _ => ?_) (by simp <;> omega))
    refine within_bind.mpr (within_lift (fun _ _ => ?_) (by simp <;> omega))
    refine within_bind.mpr (within_lift (fun _ _ => ?_) (by simp <;> omega))
    refine within_bind.mpr (within_lift (fun _ _ => ?_) (by simp <;> omega))
    refine .bind (within_encodeBase64Loop s _) (fun _ k _ h => within_ok.mpr ?_) fun k _ h => ?_ <;>
    simp only [List.length_cons] <;> omega

/-! ### Percent-encoding -/

theorem within_vecErase (d : Bytes) (i : Nat) : Within (vecErase d i) 0
    (fun d' k => d'.length + 1 = d.length ∧ k + i = d.length) fun k => k ≤ d.length + 1 := by
  refine within_tick.mpr (within_lift (fun d' h => ?_) (by omega))
  unfold EmailParser.vecErase at h
  split at h
  · cases h
    simp
    omega
  · cases h

theorem within_getUncheckedMutSet (d : Bytes) (i : Nat) (v : UInt8) : Within (getUncheckedMutSet d i v) 0
    (fun d' k => d'.length = d.length ∧ k = 1) fun k => k = 1 := by
  refine within_tick.mpr (within_lift (fun d' h => ?_) (by omega))
  unfold EmailParser.getUncheckedMutSet at h
  split at h
  · cases h
    simp
  · cases h

theorem within_percentStep (d : Bytes) (p : Nat) : Within (percentStep d p) 0
    (fun d' k => d'.length ≤ d.length ∧ k ≤ 2 * d.length + 1) fun k => k ≤ 2 * d.length + 3 := by
  unfold percentStep
  split
  · split
    · refine within_bind.mpr (within_lift (fun _ _ => ?_) (by omega))
      refine .bind (within_getUncheckedMutSet ..) (fun d1 k1 _ ⟨h1, h2⟩ => ?_) fun _ _ _ => by omega
      refine .bind (within_vecErase ..) (fun d2 k2 _ ⟨h3, h4⟩ => ?_) fun _ _ _ => by omega
      exact (within_vecErase ..).use (fun d3 k3 _ ⟨h5, h6⟩ => by omega) fun _ _ _ => by omega
    · exact within_ok.mpr (by omega)
  · exact within_ok.mpr (by omega)

theorem within_percentLoop (m : Nat) (ps : List Nat) : ∀ d : Bytes, d.length ≤ m → Within (percentLoop d ps) 0
    (fun _ k => k ≤ ps.length * (2 * m + 4)) fun k => k ≤ ps.length * (2 * m + 4) := by
  induction ps with
  | nil => intro d _; exact Nat.zero_le _
  | cons p ps ih =>
    intro d hd
    have e : (p :: ps).length * (2 * m + 4) = ps.length * (2 * m + 4) + (2 * m + 4) := Nat.succ_mul ..
    refine within_tick.mpr (.bind (within_percentStep ..) (fun d1 k1 _ ⟨h1, h2⟩ => ?_) fun _ _ _ => by omega)
    exact (ih d1 (by omega)).use (fun _ _ _ _ => by omega) fun _ _ _ => by omega

theorem percentPositions_length (s : Bytes) : ∀ i, (percentPositions i s).length ≤ s.length := by
  induction s with
  | nil => intro i; exact Nat.le_refl _
  | cons b s ih =>
    intro i
    unfold percentPositions
    have := ih (i + 1)
    split <;> simp only [List.length_cons] <;> omega

theorem within_decodeParameter (c : Cfg) (d s : Bytes) : Within (decodeParameter c d s) 0
    (fun _ k => k ≤ 3 * sq d.length) fun k => k ≤ 3 * sq d.length := by
  have h1 : d.length + 1 ≤ sq d.length := Nat.le_mul_of_pos_left _ (Nat.succ_pos _)
  have h2 : d.length * (2 * d.length + 4) + d.length + 1 ≤ 3 * sq d.length := by
    have e1 : ∀ n : Nat, n * (2 * n + 4) = 2 * (n * n) + 4 * n := fun n => by
      rw [Nat.mul_add, Nat.mul_left_comm, Nat.mul_comm n 4]
    have e2 : ∀ n : Nat, sq n = n * n + 2 * n + 1 := fun n => by
      unfold sq
      rw [Nat.succ_mul, Nat.mul_succ]
      omega
    rw [e1, e2]
    omega
  have h3 : (percentPositions 0 d).length * (2 * d.length + 4) ≤ d.length * (2 * d.length + 4) :=
    Nat.mul_le_mul_right _ (percentPositions_length d 0)
  refine within_tick.mpr ?_
  split
  · exact within_ok.mpr (by omega)
  · refine .bind (within_percentLoop d.length _ _ (Nat.le_refl _)) (fun d1 k1 _ h4 => ?_) fun k _ h4 => ?_
    · rw [List.length_reverse] at h4
      split
      · exact within_lift (fun _ _ => by omega) (by omega)
      · exact within_err.mpr (by omega)
    · rw [List.length_reverse] at h4
      omega

/-! ### Families of texts that reach the bounds -/

theorem bind_eq {x : Timed α} {f : α → Timed β} {a : α} {k : Nat} (h : x = ⟨.ok a, k⟩) :
    x >>= f = ⟨(f a).out, k + (f a).cost⟩ := by
  subst h
  rfl

theorem vecInsert_eq (pre s : Bytes) (v : UInt8) :
    vecInsert (pre ++ s) pre.length v = ⟨.ok (pre ++ v :: s), s.length + 1⟩ := by
  show Timed.mk _ _ = _
  simp only [tick, lift, vecInsert_prefix]
  simp

theorem vecRemove_eq (pre s : Bytes) (a : UInt8) :
    vecRemove (pre ++ a :: s) pre.length = ⟨.ok (a, pre ++ s), s.length + 1⟩ := by
  show Timed.mk _ _ = _
  simp only [tick, lift, vecRemove_prefix]
  simp
  omega

theorem vecRemove_eq_succ (pre s : Bytes) (a b : UInt8) :
    vecRemove (pre ++ a :: b :: s) (pre.length + 1) = ⟨.ok (b, pre ++ a :: s), s.length + 1⟩ := by
  have := vecRemove_eq (pre ++ [a]) s b
  simpa using this

theorem vecSet_eq (pre s : Bytes) (a v : UInt8) :
    vecSet (pre ++ a :: s) pre.length v = ⟨.ok (pre ++ v :: s), 1⟩ := by
  show Timed.mk _ _ = _
  simp only [tick, lift, vecSet_prefix]

theorem mul_self_succ (m : Nat) : (m + 1) * (m + 1) = m * m + 2 * m + 1 := by
  rw [Nat.succ_mul, Nat.mul_succ]
  omega

theorem flatten_length (n : Nat) (s : Bytes) : (List.replicate n s).flatten.length = n * s.length := by
  simp

/-- An escaped letter costs twice what remains behind it. -/
theorem decodeQpLoop_escape (n : Nat) (pre s : Bytes) :
    (decodeQpLoop (n + 1) (pre ++ 61 :: 52 :: 49 :: s) pre.length).cost =
      2 * s.length + 5 + (decodeQpLoop n (pre ++ 65 :: s) (pre.length + 1)).cost := by
  conv => lhs; unfold decodeQpLoop
  rw [getElem?_prefix, getElem?_prefix_add, getElem?_prefix_add]
  have h : (pre ++ 61 :: 52 :: 49 :: s).length > pre.length + 2 := by simp
  simp only [List.head?_cons, List.getElem?_cons_succ, List.getElem?_cons_zero, h, if_true,
    show (litteralReprPossible 61 || (61 : UInt8) == 32 || (61 : UInt8) == 9) = false from by decide,
    show ((61 : UInt8) == 61) = true from rfl,
    show (some (52 : UInt8) == some 13 && some (49 : UInt8) == some 10) = false from rfl,
    Bool.false_eq_true, if_false, vecRemove_eq_succ, bind_eq rfl, tick, lift,
    show fromHex 52 = some 4 from rfl, show fromHex 49 = some 1 from rfl,
    show u8 ((4 : UInt8).toNat * 16 + (1 : UInt8).toNat) = .ok 65 from rfl, vecSet_eq,
    show UInt8.ofNat 65 = 65 from rfl, List.length_cons]
  omega

theorem decodeQpLoop_family (m : Nat) : ∀ (n : Nat) (pre : Bytes), 3 * m < n →
    (decodeQpLoop n (pre ++ (List.replicate m (b! "=41")).flatten) pre.length).cost = 3 * (m * m) + 2 * m + 1 := by
  induction m with
  | zero =>
    intro n pre h
    obtain ⟨n, rfl⟩ : ∃ k, n = k + 1 := ⟨n - 1, by omega⟩
    unfold decodeQpLoop
    rw [getElem?_prefix]
    rfl
  | succ m ih =>
    intro n pre h
    obtain ⟨n, rfl⟩ : ∃ k, n = k + 1 := ⟨n - 1, by omega⟩
    rw [List.replicate_succ, List.flatten_cons]
    simp only [List.cons_append, List.nil_append]
    rw [decodeQpLoop_escape]
    have h1 := ih n (pre ++ [65]) (by omega)
    simp only [List.append_assoc, List.singleton_append, List.length_append, List.length_singleton] at h1
    rw [h1, flatten_length, mul_self_succ]
    simp only [List.length_cons, List.length_nil]
    omega

/-- An escaped letter costs twice what remains behind it. -/
theorem decodeHeaderQpLoop_escape (n : Nat) (pre s : Bytes) :
    (decodeHeaderQpLoop (n + 1) (pre ++ 61 :: 52 :: 49 :: s) pre.length).cost =
      2 * s.length + 5 + (decodeHeaderQpLoop n (pre ++ 65 :: s) (pre.length + 1)).cost := by
  conv => lhs; unfold decodeHeaderQpLoop
  rw [getElem?_prefix, getElem?_prefix_add, getElem?_prefix_add]
  have h : (pre ++ 61 :: 52 :: 49 :: s).length > pre.length + 2 := by simp
  simp only [List.head?_cons, List.getElem?_cons_succ, List.getElem?_cons_zero, h, if_true,
    show ((61 : UInt8) == 95) = false from rfl,
    show ((61 : UInt8) == 61) = true from rfl,
    show (some (52 : UInt8) == some 13 && some (49 : UInt8) == some 10) = false from rfl,
    Bool.false_eq_true, if_false, vecRemove_eq_succ, bind_eq rfl, tick, lift,
    show fromHex 52 = some 4 from rfl, show fromHex 49 = some 1 from rfl,
    show u8 ((4 : UInt8).toNat * 16 + (1 : UInt8).toNat) = .ok 65 from rfl, vecSet_eq,
    show UInt8.ofNat 65 = 65 from rfl, List.length_cons]
  omega

theorem decodeHeaderQpLoop_family (m : Nat) : ∀ (n : Nat) (pre : Bytes), 3 * m < n →
    (decodeHeaderQpLoop n (pre ++ (List.replicate m (b! "=41")).flatten) pre.length).cost = 3 * (m * m) + 2 * m + 1 := by
  induction m with
  | zero =>
    intro n pre h
    obtain ⟨n, rfl⟩ : ∃ k, n = k + 1 := ⟨n - 1, by omega⟩
    unfold decodeHeaderQpLoop
    rw [getElem?_prefix]
    rfl
  | succ m ih =>
    intro n pre h
    obtain ⟨n, rfl⟩ : ∃ k, n = k + 1 := ⟨n - 1, by omega⟩
    rw [List.replicate_succ, List.flatten_cons]
    simp only [List.cons_append, List.nil_append]
    rw [decodeHeaderQpLoop_escape]
    have h1 := ih n (pre ++ [65]) (by omega)
    simp only [List.append_assoc, List.singleton_append, List.length_append, List.length_singleton] at h1
    rw [h1, flatten_length, mul_self_succ]
    simp only [List.length_cons, List.length_nil]
    omega

/-- Encoding a byte that must be escaped costs at least four times what remains. -/
theorem encodeQpLoop_escape (n l : Nat) (pre s : Bytes) : ∃ pre' l',
    4 * s.length + 4 + (encodeQpLoop n (pre' ++ s) pre'.length l').cost ≤
      (encodeQpLoop (n + 1) (pre ++ 0 :: s) pre.length l).cost := by
  have rest : ∀ (pre : Bytes) (l : Nat),
      ((if litteralReprPossible 0 then encodeQpLoop n (pre ++ 0 :: s) (pre.length + 1) (l + 1)
            else if ((0 : UInt8) == 9 || (0 : UInt8) == 32) &&
                ((pre ++ 0 :: s)[pre.length + 1]?.map (fun c => c != 13)).getD false then
              encodeQpLoop n (pre ++ 0 :: s) (pre.length + 1) (l + 1)
            else if (0 : UInt8) == 13 && (pre ++ 0 :: s)[pre.length + 1]? == some 10 then
              encodeQpLoop n (pre ++ 0 :: s) (pre.length + 2) 0
            else do
              let (_, d') ← vecRemove (pre ++ 0 :: s) pre.length
              let low ← lift (toHex (0 % 16))
              let d' ← vecInsert d' pre.length low
              let high ← lift (toHex ((0 - 0 % 16) / 16))
              let d' ← vecInsert d' pre.length high
              let d' ← vecInsert d' pre.length 61
              encodeQpLoop n d' (pre.length + 3) (l + 3)) : Timed Bytes).cost =
        4 * s.length + 7 + (encodeQpLoop n ((pre ++ [61, 48, 48]) ++ s) (pre ++ [61, 48, 48]).length (l + 3)).cost := by
    intro pre l
    simp only [show litteralReprPossible 0 = false from by decide, show ((0 : UInt8) == 9) = false from rfl,
      show ((0 : UInt8) == 32) = false from rfl, show ((0 : UInt8) == 13) = false from rfl, Bool.or_false,
      Bool.false_and, Bool.false_eq_true, if_false, vecRemove_eq, bind_eq rfl, lift,
      show toHex (0 % 16) = .ok 48 from by decide, show toHex ((0 - 0 % 16) / 16) = .ok 48 from by decide,
      vecInsert_eq, List.length_cons, List.append_assoc, List.length_append, List.length_nil,
      List.cons_append, List.nil_append, Nat.zero_add, Nat.reduceAdd]
    omega
  by_cases hl : l ≥ 72
  · refine ⟨pre ++ [61, 13, 10] ++ [61, 48, 48], 0 + 3, ?_⟩
    have := rest (pre ++ [61, 13, 10]) 0
    rw [encodeQpLoop, getElem?_prefix]
    simp only [List.head?_cons, bind_eq rfl, tick, if_pos hl, vecInsert_eq, ok]
    simp only [List.append_assoc, List.length_append, List.cons_append, List.nil_append, List.length_cons,
      List.length_nil, Nat.zero_add, Nat.reduceAdd] at this ⊢
    rw [this]
    omega
  · refine ⟨pre ++ [61, 48, 48], l + 3, ?_⟩
    have := rest pre l
    rw [encodeQpLoop, getElem?_prefix]
    simp only [List.head?_cons, bind_eq rfl, tick, if_neg hl, ok]
    rw [this]
    omega

theorem encodeQpLoop_family (m : Nat) : ∀ (n l : Nat) (pre : Bytes), m < n →
    2 * (m * m) ≤ (encodeQpLoop n (pre ++ List.replicate m 0) pre.length l).cost := by
  induction m with
  | zero => intro n l pre h; exact Nat.zero_le _
  | succ m ih =>
    intro n l pre h
    obtain ⟨n, rfl⟩ : ∃ k, n = k + 1 := ⟨n - 1, by omega⟩
    obtain ⟨pre', l', h1⟩ := encodeQpLoop_escape n l pre (List.replicate m 0)
    have h2 := ih n l' pre' (by omega)
    rw [List.replicate_succ, mul_self_succ]
    rw [List.length_replicate] at h1
    omega

/-! Percent-encoding: the last byte first. -/

theorem percentPositions_append (a b : Bytes) : ∀ i,
    percentPositions i (a ++ b) = percentPositions i a ++ percentPositions (i + a.length) b := by
  induction a with
  | nil => intro i; rfl
  | cons x a ih =>
    intro i
    simp only [List.cons_append, percentPositions, ih, List.length_cons]
    split <;> simp [Nat.add_assoc, Nat.add_comm 1]

theorem vecErase_eq (pre s : Bytes) (a : UInt8) :
    vecErase (pre ++ a :: s) pre.length = ⟨.ok (pre ++ s), s.length + 1⟩ := by
  have h : (pre ++ a :: s).drop (pre.length + 1) = s := by
    rw [List.drop_append]
    simp [List.drop_of_length_le]
  show Timed.mk _ _ = _
  simp [tick, lift, EmailParser.vecErase, h]
  omega

theorem percentStep_escape (pre s : Bytes) : percentStep (pre ++ 37 :: 52 :: 49 :: s) pre.length =
    ⟨.ok (pre ++ 65 :: s), 2 * s.length + 3⟩ := by
  have h1 : getUncheckedMutSet (pre ++ 37 :: 52 :: 49 :: s) pre.length 65 = ⟨.ok (pre ++ 65 :: 52 :: 49 :: s), 1⟩ := by
    show Timed.mk _ _ = _
    simp [tick, lift, EmailParser.getUncheckedMutSet]
  have h2 := vecErase_eq (pre ++ [65, 52]) s 49
  have h3 := vecErase_eq (pre ++ [65]) s 52
  simp only [List.append_assoc, List.length_append, List.cons_append, List.nil_append, List.length_cons,
    List.length_nil, Nat.zero_add, Nat.reduceAdd] at h2 h3
  unfold percentStep
  rw [getElem?_prefix_add, getElem?_prefix_add]
  simp only [List.getElem?_cons_succ, List.getElem?_cons_zero, show fromHex 52 = some 4 from rfl,
    show fromHex 49 = some 1 from rfl, show u8 ((4 : UInt8).toNat * 16 + (1 : UInt8).toNat) = .ok 65 from rfl,
    show UInt8.ofNat 65 = 65 from rfl, bind_eq rfl, lift, h1, h2, h3]
  congr 1
  omega

theorem percentLoop_family (m : Nat) : ∀ s : Bytes,
    (percentLoop ((List.replicate m (b! "%41")).flatten ++ s)
      (percentPositions 0 (List.replicate m (b! "%41")).flatten).reverse).cost = m * m + 3 * m + 2 * (m * s.length) := by
  induction m with
  | zero => intro s; simp [percentLoop, percentPositions, ok]
  | succ m ih =>
    intro s
    have h1 : (List.replicate (m + 1) (b! "%41")).flatten = (List.replicate m (b! "%41")).flatten ++ b! "%41" := by
      rw [List.replicate_succ', List.flatten_append]
      rfl
    have h2 := ih (65 :: s)
    have h3 := percentStep_escape (List.replicate m (b! "%41")).flatten s
    rw [h1, percentPositions_append, List.reverse_append]
    simp only [percentPositions, Nat.zero_add, List.append_assoc, List.cons_append, List.nil_append,
      show ((37 : UInt8) == 37) = true from rfl, show ((52 : UInt8) == 37) = false from rfl,
      show ((49 : UInt8) == 37) = false from rfl, if_true, Bool.false_eq_true, if_false, List.reverse_cons,
      List.reverse_nil]
    rw [percentLoop, h3]
    simp only [bind_eq rfl, tick]
    rw [h2, mul_self_succ, List.length_cons, Nat.mul_succ m, show (m + 1) * s.length = _ from Nat.succ_mul ..]
    omega

theorem bind_free {x : Timed α} {f : α → Timed β} (h : ∀ a, (f a).cost = 0) : (x >>= f).cost = x.cost := by
  obtain ⟨o, k⟩ := x
  cases o with
  | ok a => show k + (f a).cost = k; rw [h]; rfl
  | err e => rfl
  | abort e => rfl

theorem decodeParameter_family (c : Cfg) (m : Nat) {s : Bytes} (hs : knownCharset s = true) :
    (decodeParameter c (List.replicate m (b! "%41")).flatten s).cost = m * m + 6 * m + 1 := by
  have h1 := percentLoop_family m []
  rw [List.append_nil] at h1
  unfold decodeParameter
  rw [hs, bind_eq (show tick _ = ⟨.ok (), _⟩ from rfl)]
  simp only [Bool.not_true, Bool.false_eq_true, if_false]
  rw [bind_free, h1, flatten_length]
  · simp only [List.length_cons, List.length_nil, Nat.mul_zero]
    omega
  · intro d
    split <;> rfl

theorem qpDecode_family (m : Nat) : Spec.qpDecode (List.replicate m (b! "=41")).flatten = List.replicate m 65 := by
  induction m with
  | zero => rfl
  | succ m ih =>
    rw [List.replicate_succ, List.replicate_succ, List.flatten_cons, ← ih]
    simp only [List.cons_append, List.nil_append]
    rw [qpDecode_escape _ (by decide), show Spec.hexByte? 52 49 = some 65 from by decide]

end EmailParser.Timed
