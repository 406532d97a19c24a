import Verif.Model.TimedEntity
import Verif.Proofs.Timed.Codecs
import Verif.Proofs.Timed.Message
import Verif.Proofs.Entity
/-
The counting functions for MIME entities have the same outcomes as the functions they copy, and bounds of
their costs.
-/
namespace EmailParser.Timed

variable {α β γ : Type} {c : Cfg}

/-! ### The same outcomes -/

theorem entityHeader_of : Same (entityHeader c) (EmailParser.entityHeader c) :=
  matchParsers_of (.cons (mapValue_of _ contentTransferEncoding_of) <| .cons (mapValue_of _ contentType_of) <|
    .cons (mapValue_of _ contentId_of) <| .cons (mapValue_of _ contentDescription_of) <|
    .cons (mapValue_of _ contentDisposition_of) <| .cons (mapValue_of _ unknown_out) .nil)

@[simp] theorem headerPart_out (i : Bytes) : (headerPart c i).out = EmailParser.headerPart c i :=
  bind_of (many_of entityHeader_of i) fun _ => tick_of (ite_of rfl (bind_of (tag_out ..) fun _ => rfl))

@[simp] theorem decodeValue_out (v : Bytes) (e : ContentTransferEncoding) :
    (decodeValue v e).out = EmailParser.decodeValue v e := by
  cases e
  all_goals first | rfl | exact base64Main_out .. | exact decodeQpLoop_out ..

@[simp] theorem rawEntity_out (i : Bytes) : (rawEntity c i).out = EmailParser.rawEntity c i :=
  bind_of (headerPart_out i) fun _ => bind_of rfl fun _ => bind_of (decodeValue_out ..) fun _ => rfl

@[simp] theorem sameRange_out (i : Bytes) (a b : Nat) (e : Bytes) :
    (sameRange i a b e).out = .ok (getRange i a b == some e) := by
  unfold sameRange
  refine tick_of ?_
  cases getRange i a b <;> rfl

theorem both_out {x y : Timed Bool} {a b : Bool} (hx : x.out = .ok a) (hy : y.out = .ok b) :
    (both x y).out = .ok (a && b) := by
  unfold both
  rw [bind_out, hx]
  cases a
  · rfl
  · exact hy

theorem findIndex_out {cond : Nat → Timed Bool} {f : Nat → Bool} (h : ∀ k, (cond k).out = .ok (f k)) : ∀ n idx,
    (findIndex cond idx n).out = .ok (EmailParser.findIndex f idx n)
  | 0, _ => rfl
  | n + 1, idx => by
    unfold findIndex
    refine tick_of ?_
    rw [bind_out, h idx]
    unfold EmailParser.findIndex
    cases f idx
    · exact findIndex_out h n (idx + 1)
    · rfl

@[simp] theorem beforeBoundaryIdx_out (i b : Bytes) :
    (beforeBoundaryIdx i b).out = EmailParser.beforeBoundaryIdx i b := by
  have h1 : (atBoundary i b).out = .ok (2 + 2 + b.length + 2 - 2 ≤ i.length
        && getRange i 0 2 == some (b! "--")
        && getRange i 2 (2 + b.length) == some b
        && getRange i (2 + b.length) (2 + 2 + b.length + 2 - 2) == some (b! "\r\n")) := by
    unfold atBoundary
    dsimp only
    split
    · rename_i h
      rw [both_out (sameRange_out ..) (both_out (sameRange_out ..) (sameRange_out ..)), decide_eq_true h,
        Bool.true_and, Bool.and_assoc]
    · rename_i h
      rw [decide_eq_false h]
      rfl
  have h2 : ∀ idx, _ := fun idx => both_out (sameRange_out i idx (idx + 4) (b! "\r\n--"))
    (both_out (sameRange_out i (idx + 4) (idx + 4 + b.length) b)
      (sameRange_out i (idx + 4 + b.length) (idx + (2 + 2 + b.length + 2)) (b! "\r\n")))
  unfold beforeBoundaryIdx EmailParser.beforeBoundaryIdx
  dsimp only
  rw [bind_out, h1]
  show (if _ then _ else _ : Timed _).out = _
  refine ite_of rfl ?_
  rw [bind_out, findIndex_out h2]
  simp only [Bool.and_assoc]
  show (match EmailParser.findIndex _ _ _ with | some _ => _ | none => _ : Timed _).out = _
  split <;> rename_i h <;> rw [h] <;> rfl

@[simp] theorem beforeClosingBoundaryIdx_out (i b : Bytes) :
    (beforeClosingBoundaryIdx i b).out = EmailParser.beforeClosingBoundaryIdx i b := by
  have h2 : ∀ idx, _ := fun idx => both_out (sameRange_out i idx (idx + 4) (b! "\r\n--"))
    (both_out (sameRange_out i (idx + 4) (idx + 4 + b.length) b)
      (sameRange_out i (idx + 4 + b.length) (idx + (2 + 2 + b.length + 2 + 2)) (b! "--\r\n")))
  unfold beforeClosingBoundaryIdx EmailParser.beforeClosingBoundaryIdx
  dsimp only
  rw [bind_out, findIndex_out h2]
  simp only [Bool.and_assoc]
  show (match EmailParser.findIndex _ _ _ with | some _ => _ | none => _ : Timed _).out = _
  split <;> rename_i h <;> rw [h] <;> rfl

theorem beforeBoundary_of (b : Bytes) : Same (beforeBoundary b) (EmailParser.beforeBoundary b) := fun _ =>
  bind_of (beforeBoundaryIdx_out ..) fun _ => bind_of rfl fun _ => bind_of rfl fun _ => rfl

theorem beforeClosingBoundary_of (b : Bytes) : Same (beforeClosingBoundary b) (EmailParser.beforeClosingBoundary b) :=
  fun _ => bind_of (beforeClosingBoundaryIdx_out ..) fun _ => bind_of rfl fun _ => bind_of rfl fun _ => rfl

@[simp] theorem rawEntities_out : ∀ parts, (rawEntities c parts).out = EmailParser.rawEntities c parts
  | [] => rfl
  | part :: parts => tick_of (bind_of (rawEntity_out part) fun _ => bind_of (rawEntities_out parts) fun _ => rfl)

@[simp] theorem multipartParts_out (i b : Bytes) : (multipartParts i b).out = EmailParser.multipartParts i b := by
  refine bind_of (many_of (beforeBoundary_of b) i) fun ⟨r, parts⟩ => bind_of (beforeClosingBoundary_of b r) fun ⟨e, p⟩ =>
    tick_of ?_
  dsimp only
  generalize parts ++ [p] = l
  cases l <;> rfl

@[simp] theorem parseMultipart_out (i : Bytes) (p : Params) : (parseMultipart c i p).out = EmailParser.parseMultipart c i p := by
  unfold parseMultipart EmailParser.parseMultipart
  cases p (b! "boundary")
  · rfl
  · exact bind_of (multipartParts_out ..) fun _ => rawEntities_out _

theorem entity_out (raw : RawEntity) : (entity c raw).out = RawEntity.parse c raw := by
  unfold entity RawEntity.parse
  refine ite_of (bind_of (parseMultipart_out ..) fun _ => rfl) (ite_of ?_ rfl)
  cases raw.parameters (b! "charset") with
  | none => rfl
  | some cs =>
    dsimp only
    cases decodeCharset c (c.toLowercase cs) raw.value with
    | none => rfl
    | some t => exact bind_of rfl fun _ => rfl

/-! ### The headers of a part -/

theorem entityHeader_line (i : Bytes) : Line sq 4000 i (entityHeader c i) := by
  unfold entityHeader
  have h1 : Line sq 538 i (Timed.contentType c i) := Line.header (by decide +kernel) (by decide +kernel) (by decide) (by decide)
    fun _ => contentTypeValue_quad.cost
  have h2 : Line sq 1679 i (Timed.contentDisposition c i) := Line.header (by decide +kernel) (by decide +kernel) (by decide) (by decide)
    fun _ => contentDispositionValue_quad.cost
  exact Line.mono (F := _) (.cons (.value _ .contentTransferEncoding) <| .cons (.value _ h1) <| .cons (.value _ .contentId) <|
    .cons (.value _ .contentDescription) <| .cons (.value _ h2) <| .cons (.value _ .unknown) .nil) (by decide)

theorem entityHeaders_within (i : Bytes) : Within (many i (entityHeader c)) 0
    (fun a k => a.2.length ≤ k ∧ k ≤ 2200000 * sq i.length) fun k => k ≤ 2200000 * sq i.length := by
  have hi : sq (reach i) ≤ sq i.length := sq_mono (reach_le i)
  have h := Line.many (S := 0) (fun j => entityHeader_line (c := c) j) (by decide) (i.length + 1) i
  refine (h.1.and (manyLoop_length _ i)).mono ?_ ?_
  · rintro ⟨r, v⟩ k ⟨hk, hv⟩
    simp only [budget] at hk
    refine ⟨hv, ?_⟩
    dsimp only at *
    rcases hk with ⟨rfl, hk⟩ | ⟨hl, _, hk⟩ | ⟨hl, hk⟩
    · omega
    · omega
    · have : sq (reach r) ≤ sq i.length := sq_mono (Nat.le_trans (reach_le r) hl)
      omega
  · rintro k ⟨hk, _⟩
    simp only [budget] at hk
    omega

theorem headerPart_within (i : Bytes) : Within (headerPart c i) 0 (fun _ k => k ≤ 4400003 * sq i.length)
    fun k => k ≤ 4400003 * sq i.length := by
  have hp := sq_pos i.length
  unfold headerPart
  refine Within.bind (entityHeaders_within i) ?_ (fun _ _ h => by omega)
  rintro ⟨r, hs⟩ k _ ⟨hl, hk⟩
  dsimp only at *
  refine within_tick.mpr ?_
  split
  · exact within_ok.mpr (by omega)
  · have hc : (tag r (b! "\r\n") "TAG ERROR: A MIME entity header part must be followed by a CRLF sequence.").cost = 3 :=
      tag_cost ..
    refine Within.bind .self ?_ ?_
    · rintro ⟨s, u⟩ m _ rfl
      exact within_ok.mpr (by omega)
    · rintro m _ rfl
      omega

theorem decodeValue_within (v : Bytes) (e : ContentTransferEncoding) : Within (decodeValue v e) 0
    (fun _ k => k ≤ 6 * sq v.length) fun k => k ≤ 6 * sq v.length := by
  have hp : v.length + 1 ≤ sq v.length := Growth.lin _
  cases e
  case base64 =>
    refine (within_base64Main _ v 0 0 (Nat.zero_le _)).mono ?_ ?_
    · intro _ k hk
      omega
    · intro k hk
      omega
  case quotedPrintable =>
    refine (within_decodeQpLoop _ v 0).mono ?_ ?_
    · intro _ k hk
      exact Nat.le_trans hk (Nat.mul_le_mul_right _ (by decide))
    · intro k hk
      exact Nat.le_trans hk (Nat.mul_le_mul_right _ (by decide))
  all_goals exact Nat.zero_le _

theorem rawEntity_within (i : Bytes) : Within (rawEntity c i) 0 (fun _ k => k ≤ 4400009 * sq i.length)
    fun k => k ≤ 4400009 * sq i.length := by
  unfold rawEntity
  refine Within.bind (headerPart_within i) ?_ (fun _ _ h => by omega)
  rintro ⟨len, h⟩ k _ hk
  refine within_bind.mpr (within_lift ?_ (by omega))
  intro body hb
  have hl : body.length ≤ i.length := by
    unfold entityBody sliceFrom at hb
    split at hb
    · split at hb
      · cases hb
        simp
      · cases hb
    · cases hb
  have := sq_mono hl
  refine Within.bind (decodeValue_within ..) ?_ (fun _ _ h => by omega)
  rintro v m _ hm
  exact within_ok.mpr (by omega)

/-! ### The search for the delimiters -/

theorem sameRange_cost (i : Bytes) (a b : Nat) (e : Bytes) : (sameRange i a b e).cost ≤ e.length + 1 := by
  unfold sameRange
  rw [tick_cost]
  cases getRange i a b
  · show 1 + 0 ≤ _
    omega
  · show 1 + (e.length + 0) ≤ _
    omega

theorem sameRange_cost_le (i : Bytes) (a : Nat) (e : Bytes) : (sameRange i a (a + e.length) e).cost ≤ i.length + 1 := by
  unfold sameRange
  rw [tick_cost]
  cases h : getRange i a (a + e.length)
  · show 1 + 0 ≤ _
    omega
  · show 1 + (e.length + 0) ≤ _
    unfold getRange at h
    split at h
    · omega
    · cases h

theorem both_cost (x y : Timed Bool) : (both x y).cost ≤ x.cost + y.cost := by
  unfold both
  obtain ⟨o, k⟩ := x
  cases o with
  | ok a =>
    show k + (if a then y else ok false).cost ≤ k + y.cost
    cases a
    · exact Nat.add_le_add_left (Nat.zero_le _) _
    · exact Nat.le_refl _
  | err e => exact Nat.add_le_add_left (Nat.zero_le _) _
  | abort e => exact Nat.add_le_add_left (Nat.zero_le _) _

/-- Three ranges are compared: the one in the middle costs at most the input. -/
theorem ranges_cost (i : Bytes) (a a' d : Nat) (x b y : Bytes) (hx : x.length ≤ 4) (hy : y.length ≤ 4) :
    (both (sameRange i a a' x) <| both (sameRange i a' (a' + b.length) b) (sameRange i (a' + b.length) d y)).cost + 1
      ≤ i.length + 12 := by
  have h1 := both_cost (sameRange i a a' x) (both (sameRange i a' (a' + b.length) b) (sameRange i (a' + b.length) d y))
  have h2 := both_cost (sameRange i a' (a' + b.length) b) (sameRange i (a' + b.length) d y)
  have h3 := sameRange_cost i a a' x
  have h4 := sameRange_cost_le i a' b
  have h5 := sameRange_cost i (a' + b.length) d y
  omega

theorem findIndex_within {cond : Nat → Timed Bool} {f : Nat → Bool} {M : Nat} (ho : ∀ k, (cond k).out = .ok (f k))
    (hc : ∀ k, (cond k).cost + 1 ≤ M) : ∀ n idx, Within (findIndex cond idx n) 0
    (fun r k => k ≤ n * M ∧ ∀ j, r = some j → idx ≤ j ∧ k ≤ (j + 1 - idx) * M) fun _ => False
  | 0, idx => within_ok.mpr ⟨Nat.zero_le _, fun _ h => by cases h⟩
  | n + 1, idx => by
    unfold findIndex
    have h1 := hc idx
    refine within_tick.mpr (Within.bind (within_of_out (ho idx) rfl : Within _ 0 (fun a k => k = 0 + (cond idx).cost) (fun _ => False)) ?_
      (fun _ _ h => h.elim))
    rintro a k _ rfl
    split
    · refine within_ok.mpr ⟨?_, ?_⟩
      · rw [Nat.add_mul]
        omega
      · intro j hj
        cases hj
        rw [show idx + 1 - idx = 1 by omega]
        omega
    · refine (findIndex_within ho hc n (idx + 1)).use ?_ (fun _ _ h => h.elim)
      rintro r m _ ⟨hm, hj⟩
      refine ⟨by rw [Nat.add_mul]; omega, fun j e => ?_⟩
      obtain ⟨h2, h3⟩ := hj j e
      refine ⟨by omega, ?_⟩
      rw [show j + 1 - idx = (j + 1 - (idx + 1)) + 1 by omega, Nat.add_mul]
      omega

theorem atBoundary_within (i b : Bytes) : ∃ a, (atBoundary i b).out = .ok a ∧ (atBoundary i b).cost + 1 ≤ i.length + 12 := by
  unfold atBoundary
  dsimp only
  split
  · exact ⟨_, both_out (sameRange_out ..) (both_out (sameRange_out ..) (sameRange_out ..)),
      ranges_cost i 0 2 _ _ b _ (by decide) (by decide)⟩
  · exact ⟨_, rfl, by show 0 + 1 ≤ _; omega⟩

/-- The next delimiter is found after a number of comparisons at most proportional to the part before
it. -/
theorem beforeBoundary_within (b i : Bytes) : Within (beforeBoundary b i) 0
    (fun a k => a.2.length + 4 + a.1.length ≤ i.length ∧ k ≤ (a.2.length + 2) * (i.length + 12))
    fun k => k ≤ (i.length + 1) * (i.length + 12) := by
  have hidx : Within (beforeBoundaryIdx i b) 0 (fun a k => 4 ≤ a.2 ∧ k ≤ (a.1 + 2) * (i.length + 12) ∧
      k ≤ (i.length + 1) * (i.length + 12)) fun k => k ≤ (i.length + 1) * (i.length + 12) := by
    unfold beforeBoundaryIdx
    obtain ⟨a, ha, hk⟩ := atBoundary_within i b
    refine Within.bind (within_of_out ha rfl : Within _ 0 (fun _ k => k = 0 + (atBoundary i b).cost) (fun _ => False)) ?_
      (fun _ _ h => h.elim)
    rintro a k _ rfl
    split
    · refine within_ok.mpr ⟨by dsimp only; omega, by dsimp only; omega, ?_⟩
      rw [Nat.add_mul]
      omega
    · refine Within.bind (findIndex_within (fun k => both_out (sameRange_out ..) (both_out (sameRange_out ..) (sameRange_out ..)))
        (fun k => ranges_cost i k (k + 4) _ _ b _ (by decide) (by decide)) i.length 0) ?_ (fun _ _ h => h.elim)
      rintro r m _ ⟨hm, hj⟩
      have h2 : (i.length + 1) * (i.length + 12) = i.length * (i.length + 12) + (i.length + 12) := Nat.succ_mul ..
      cases r with
      | none => exact within_err.mpr (by omega)
      | some j =>
        obtain ⟨-, h⟩ := hj j rfl
        refine within_ok.mpr ⟨by dsimp only; omega, ?_, by omega⟩
        show _ ≤ (j + 2) * (i.length + 12)
        rw [show j + 2 = (j + 1 - 0) + 1 by omega, Nat.add_mul (j + 1 - 0)]
        omega
  unfold beforeBoundary
  refine Within.bind hidx ?_ (fun _ _ h => by omega)
  rintro ⟨before, len⟩ k ho ⟨h4, hk, hk'⟩
  dsimp only at h4 hk
  refine within_bind.mpr (within_lift (fun rest hr => within_bind.mpr (within_lift (fun part hp => within_ok.mpr ?_) ?_)) ?_)
  · unfold getUncheckedTo at hp
    unfold getUncheckedFrom at hr
    split at hp
    · split at hr
      · cases hp
        cases hr
        dsimp only
        rw [List.length_take, List.length_drop, Nat.min_eq_left (by omega)]
        exact ⟨by omega, by omega⟩
      · cases hr
    · cases hp
  · omega
  · omega

theorem beforeClosingBoundary_within (b i : Bytes) : Within (beforeClosingBoundary b i) 0
    (fun a k => a.2.length + 4 + a.1.length ≤ i.length ∧ k ≤ i.length * (i.length + 12))
    fun k => k ≤ i.length * (i.length + 12) := by
  have hidx : Within (beforeClosingBoundaryIdx i b) 0 (fun a k => 4 ≤ a.2 ∧ k ≤ i.length * (i.length + 12))
      fun k => k ≤ i.length * (i.length + 12) := by
    unfold beforeClosingBoundaryIdx
    refine Within.bind (findIndex_within (fun k => both_out (sameRange_out ..) (both_out (sameRange_out ..) (sameRange_out ..)))
      (fun k => ranges_cost i k (k + 4) _ _ b _ (by decide) (by decide)) i.length 0) ?_ (fun _ _ h => h.elim)
    rintro r m _ ⟨hm, -⟩
    cases r with
    | none => exact within_err.mpr (by omega)
    | some j => exact within_ok.mpr ⟨by dsimp only; omega, by omega⟩
  unfold beforeClosingBoundary
  refine Within.bind hidx ?_ (fun _ _ h => by omega)
  rintro ⟨before, len⟩ k ho ⟨h4, hk⟩
  dsimp only at h4
  refine within_bind.mpr (within_lift (fun rest hr => within_bind.mpr (within_lift (fun part hp => within_ok.mpr ?_) ?_)) ?_)
  · unfold getUncheckedTo at hp
    unfold getUncheckedFrom at hr
    split at hp
    · split at hr
      · cases hp
        cases hr
        dsimp only
        rw [List.length_take, List.length_drop, Nat.min_eq_left (by omega)]
        exact ⟨by omega, by omega⟩
      · cases hr
    · cases hp
  · omega
  · omega

/-! ### The parts -/

/-- The sum of the squares of the lengths. -/
def squares : List Bytes → Nat
  | [] => 0
  | p :: ps => sq p.length + squares ps

theorem length_le_squares : ∀ ps : List Bytes, ps.length ≤ squares ps
  | [] => Nat.le_refl _
  | p :: ps => by
    have := length_le_squares ps
    have := sq_pos p.length
    simp only [squares, List.length_cons]
    omega

theorem squares_append : ∀ ps qs : List Bytes, squares (ps ++ qs) = squares ps + squares qs
  | [], qs => (Nat.zero_add _).symm
  | p :: ps, qs => by
    simp only [squares, List.cons_append, squares_append ps qs]
    omega

/-- Parts that do not overlap. -/
theorem sq_part {l m n : Nat} (h : m + 4 + l ≤ n) : sq m + sq l ≤ sq n := by
  have h1 := sq_add (rfl : l + 2 + m = l + 2 + m)
  have h2 := sq_mono (show l + 2 + m ≤ n by omega)
  omega

theorem splitLoop_within (b : Bytes) {M : Nat} : ∀ n i, i.length + 12 ≤ M → Within (manyLoop (beforeBoundary b) n i) 0
    (fun a k => a.1.length ≤ i.length ∧ squares a.2 + sq a.1.length ≤ sq i.length ∧ k ≤ (i.length + 2) * M)
    fun k => k ≤ (i.length + 2) * M
  | 0, i, _ => within_abort.mpr (Nat.zero_le _)
  | n + 1, i, hM => by
    have hm : ∀ x, x * (i.length + 12) ≤ x * M := fun x => Nat.mul_le_mul_left _ hM
    have h1 := hm (i.length + 1)
    have h2 : (i.length + 2) * M = (i.length + 1) * M + M := Nat.succ_mul ..
    unfold manyLoop
    refine within_tick.mpr (Within.on (beforeBoundary_within b i) ?_ ?_ ?_)
    · rintro ⟨r, p⟩ k _ ⟨hl, hk⟩
      dsimp only at hl hk
      have h3 := hm (p.length + 2)
      have h4 : (p.length + 4 + (r.length + 2)) * M ≤ (i.length + 2) * M := Nat.mul_le_mul_right _ (by omega)
      rw [Nat.add_mul, show p.length + 4 = p.length + 2 + 2 by omega, Nat.add_mul] at h4
      refine Within.bind (splitLoop_within b (M := M) n r (by omega)) ?_ (fun m _ h => by omega)
      rintro ⟨s, ps⟩ m _ ⟨h5, h6, h7⟩
      dsimp only at h5 h6 h7
      have h8 := sq_part hl
      exact within_ok.mpr ⟨by dsimp only; omega, by dsimp only [squares]; omega, by omega⟩
    · intro e k _ hk
      exact within_ok.mpr ⟨Nat.le_refl _, by dsimp only [squares]; omega, by omega⟩
    · intro e k _ hk
      exact within_abort.mpr (by omega)

theorem multipartParts_within (i b : Bytes) : Within (multipartParts i b) 0
    (fun ps k => squares ps ≤ sq i.length ∧ k ≤ 26 * sq i.length) fun k => k ≤ 26 * sq i.length := by
  have h0 : (i.length + 2) * (i.length + 12) + i.length * (i.length + 12) ≤ 25 * sq i.length := by
    unfold sq
    have h1 := mul_self_succ i.length
    rw [Nat.add_mul i.length 2, Nat.mul_add i.length i.length]
    omega
  unfold multipartParts
  refine Within.bind (splitLoop_within b (i.length + 1) i (Nat.le_refl _)) ?_ (fun _ _ h => by omega)
  rintro ⟨r, ps⟩ k _ ⟨h1, h2, h3⟩
  dsimp only at h1 h2 h3
  have h4 : r.length * (r.length + 12) ≤ i.length * (i.length + 12) := Nat.mul_le_mul h1 (by omega)
  refine Within.bind (beforeClosingBoundary_within b r) ?_ (fun _ _ h => by omega)
  rintro ⟨e, p⟩ m _ ⟨h5, h6⟩
  dsimp only at h5 h6
  have h7 := sq_part h5
  have h8 := length_le_squares ps
  have h9 := squares_append ps [p]
  refine within_tick.mpr ?_
  simp only [squares] at h9
  generalize ps ++ [p] = l at h9 ⊢
  cases l with
  | nil => exact within_abort.mpr (by omega)
  | cons q l =>
    simp only [squares] at h9
    exact within_ok.mpr ⟨by omega, by omega⟩

theorem rawEntities_within : ∀ ps, Within (rawEntities c ps) 0 (fun _ k => k ≤ 4400010 * squares ps)
    fun k => k ≤ 4400010 * squares ps
  | [] => Nat.zero_le _
  | p :: ps => by
    have hp := sq_pos p.length
    unfold rawEntities
    simp only [squares]
    refine within_tick.mpr (Within.bind (rawEntity_within p) ?_ (fun _ _ h => by omega))
    rintro e k _ hk
    refine Within.bind (rawEntities_within ps) ?_ (fun _ _ h => by omega)
    rintro es m _ hm
    exact within_ok.mpr (by omega)

theorem parseMultipart_within (i : Bytes) (p : Params) : Within (parseMultipart c i p) 0
    (fun _ k => k ≤ 4400036 * sq i.length) fun k => k ≤ 4400036 * sq i.length := by
  unfold parseMultipart
  cases p (b! "boundary") with
  | none => exact within_err.mpr (Nat.zero_le _)
  | some b =>
    refine Within.bind (multipartParts_within i b) ?_ (fun _ _ h => by omega)
    rintro ps k _ ⟨h1, h2⟩
    exact (rawEntities_within ps).use (fun _ m _ h => by omega) (fun m _ h => by omega)

theorem entity_cost (raw : RawEntity) : (entity c raw).cost ≤ 4400036 * sq raw.value.length := by
  unfold entity
  split
  · exact (Within.bind (parseMultipart_within raw.value raw.parameters)
      (fun _ k _ h => within_ok.mpr (show (0 + k ≤ _) by omega)) (fun k _ h => (show (0 + k ≤ _) by omega)) :
      Within _ 0 (fun _ k => k ≤ 4400036 * sq raw.value.length) (fun k => k ≤ 4400036 * sq raw.value.length)).cost fun _ _ h => h
  · split
    · split
      · split
        · refine Nat.le_trans (Nat.le_of_eq ?_) (Nat.zero_le _)
          rw [bind_cost_zero]
          · rfl
          · intro a
            rfl
        · exact Nat.zero_le _
      · exact Nat.zero_le _
    · exact Nat.zero_le _

end EmailParser.Timed
