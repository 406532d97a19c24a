import Verif.Proofs.SizeFields
import Verif.Proofs.BorrowMime
/-
The size of the values of MIME header fields.
-/
namespace EmailParser
open Spec HasStrings

variable {c : Cfg} {p : Place} {K : Nat}

/-! ### Parameters -/

theorem bytesOf_lowercase (m : Memory) (s : CowStr) : bytesOf (cowLowercase m s) = bytesOf s := by
  unfold cowLowercase
  split
  · rw [← content_length m s]
    simp [bytesOf, lowercase]
  · rfl

theorem cowToken_short (i : Bytes) : Short i (cowToken p i) := by
  unfold cowToken token
  refine (takeWhile1_gives _ i).bind fun a ha => .ok ?_
  dsimp only
  rw [bytesOf_slice]
  omega

theorem cowExtendedName_gives (i : Bytes) : Yields (cowExtendedName p i) fun a => bytesOf a.2.1 + a.1.length ≤ i.length := by
  unfold cowExtendedName
  refine Yields.bind (P := fun a : Bytes × Bytes × Option Nat × Bool => a.2.1.length + a.1.length ≤ i.length) ?_ fun a ha => .ok ha
  unfold extendedName
  refine (takeWhile1_gives _ i).bind fun a ha => ?_
  refine (optional_gives (i := a.1) (P := fun b : Bytes × Unit × Bytes => b.1.length ≤ a.1.length)
    (Q := fun b => b.1.length ≤ a.1.length) ?_ (fun _ _ h => h) (Nat.le_refl _)).bind fun b hb => ?_
  · unfold pair
    refine (tag_gives _).bind fun x hx => (takeWhile1_gives _ _).bind fun y hy => .ok ?_
    dsimp only at *
    omega
  · refine Yields.any.bind fun index _ => ?_
    refine Yields.bind (P := fun d : Bytes × Bool => d.1.length ≤ b.1.length) ?_ ?_
    · unfold encodedMark
      split
      · refine (sliceFrom_gives _ _).bind fun r hr => .ok ?_
        dsimp only
        omega
      · exact .ok (Nat.le_refl _)
    · rintro ⟨r, encoded⟩ hd
      dsimp only at hd ⊢
      split
      · refine .ok ?_
        dsimp only
        omega
      · exact .err

theorem cowParameterValue_short (i : Bytes) : Short i (cowParameterValue c p i) := by
  refine matchParsers_gives ?_
  simp only [List.mem_cons, List.not_mem_nil, or_false]
  rintro q (rfl | rfl)
  · exact cowToken_short i
  · exact cowQuotedString_short i

/-- The most that a parameter can take. -/
def paramWeight (K : Nat) (r : CowRawParam) : Nat := bytesOf r.name + K * bytesOf r.value + 2

theorem cowParameter_light (hK : 2 ≤ K) (i : Bytes) :
    Yields (cowParameter c p i) fun a => paramWeight K a.2 + K * a.1.length ≤ K * i.length := by
  unfold cowParameter
  refine (skipCfws_gives i).bind fun r1 h1 => (tag_gives' (by decide) _).bind fun a2 h2 => (skipCfws_gives _).bind fun r3 h3 =>
    (matchParsers_gives (Q := fun a => bytesOf a.2.1 + a.1.length ≤ r3.length) ?_).bind fun a4 h4 =>
    (tag_gives' (by decide) _).bind fun a5 h5 => (cowParameterValue_short _).bind fun a6 h6 => .ok ?_
  · simp only [List.mem_cons, List.not_mem_nil, or_false]
    rintro q (rfl | rfl)
    · exact cowExtendedName_gives _
    · exact (cowToken_short _).bind fun a ha => .ok ha.1
  · have h6 := h6.1
    obtain ⟨r4, name, index, encoded⟩ := a4
    dsimp only [paramWeight] at *
    rw [bytesOf_lowercase]
    have e : bytesOf name + bytesOf a6.2 + 2 + a6.1.length ≤ i.length := by omega
    have e := Nat.mul_le_mul_left K e
    rw [Nat.mul_add, Nat.mul_add, Nat.mul_add] at e
    have := Nat.le_mul_of_pos_left (bytesOf name) (show 0 < K by omega)
    omega

/-- The size of a map. -/
def paramsSize (ps : List (CowStr × CowStr)) : Nat := (ps.map fun e => bytesOf e.1 + bytesOf e.2 + 2).sum

theorem size_params (ps : CowParams) : size ps = paramsSize ps := by
  show ((pairStrings ps).map _).sum = _
  generalize (ps : List (CowStr × CowStr)) = l
  induction l with
  | nil => rfl
  | cons e l ih =>
    unfold pairStrings paramsSize at *
    rw [List.flatMap_cons, List.map_append, List.sum_append, List.map_cons, List.sum_cons, ih]
    simp only [List.map_cons, List.map_nil, List.sum_cons, List.sum_nil]
    omega

theorem size_params_nil : size (α := CowParams) [] = 0 := rfl

theorem paramsSize_cons (e : CowStr × CowStr) (l : List (CowStr × CowStr)) :
    paramsSize (e :: l) = bytesOf e.1 + bytesOf e.2 + 2 + paramsSize l := rfl

theorem paramsSize_insert (m : Memory) (n v : CowStr) : ∀ ps : List (CowStr × CowStr),
    paramsSize (cowInsert m n v ps) ≤ paramsSize ps + (bytesOf n + bytesOf v + 2)
  | [] => by
    show paramsSize [(n, v)] ≤ _
    rw [paramsSize_cons]
    show bytesOf n + bytesOf v + 2 + 0 ≤ 0 + _
    omega
  | (n', v') :: ps => by
    have ih := paramsSize_insert m n v ps
    by_cases h : n'.content m = n.content m
    · have e : paramsSize (cowInsert m n v ((n', v') :: ps)) = paramsSize ((n', v) :: ps) := congrArg paramsSize (if_pos h)
      rw [e, paramsSize_cons, paramsSize_cons]
      dsimp only
      omega
    · have e : paramsSize (cowInsert m n v ((n', v') :: ps)) =
          bytesOf n' + bytesOf v' + 2 + paramsSize (cowInsert m n v ps) := congrArg paramsSize (if_neg h)
      rw [e, paramsSize_cons]
      dsimp only
      omega

theorem cowInsert_size (m : Memory) (n v : CowStr) (ps : CowParams) :
    size (cowInsert m n v ps) ≤ size ps + (bytesOf n + bytesOf v + 2) := by
  rw [size_params, size_params]
  exact paramsSize_insert m n v ps

/-- The most that a segment can contribute. -/
def segmentWeight (K : Nat) : Option (Bool × CowStr) → Nat
  | some (_, v) => K * bytesOf v
  | none => 0

/-- The most that the segments with the first `n` numbers can contribute. -/
def segmentsWeight (K : Nat) (s : CowSegments) : Nat → Nat
  | 0 => 0
  | n + 1 => segmentsWeight K s n + segmentWeight K (s n)

theorem segmentsWeight_congr {s t : CowSegments} : ∀ {n : Nat}, (∀ i < n, s i = t i) →
    segmentsWeight K s n = segmentsWeight K t n
  | 0, _ => rfl
  | n + 1, h => by
    unfold segmentsWeight
    rw [segmentsWeight_congr fun i hi => h i (by omega), h n (by omega)]

theorem segmentsWeight_erase (s : CowSegments) (i : Nat) : ∀ {n : Nat}, i < n →
    segmentsWeight K (s.erase i) n + segmentWeight K (s i) = segmentsWeight K s n
  | n + 1, h => by
    unfold segmentsWeight
    by_cases hi : i = n
    · subst hi
      rw [segmentsWeight_congr (s := s.erase i) (t := s) (n := i) fun j hj => if_neg (by omega)]
      have : s.erase i i = none := if_pos rfl
      rw [this]
      rfl
    · have := segmentsWeight_erase s i (n := n) (by omega)
      have e : s.erase i n = s n := if_neg fun h => hi h.symm
      rw [e]
      omega

theorem segmentsWeight_insert (s : CowSegments) (i : Nat) (v : Bool × CowStr) : ∀ n : Nat,
    segmentsWeight K (s.insert i v) n ≤ segmentsWeight K s n + K * bytesOf v.2
  | 0 => Nat.zero_le _
  | n + 1 => by
    unfold segmentsWeight
    by_cases hi : n = i
    · subst hi
      rw [segmentsWeight_congr (s := s.insert n v) (t := s) (n := n) fun j hj => if_neg (by omega)]
      have : s.insert n v n = some v := if_pos rfl
      rw [this]
      show _ + K * bytesOf v.2 ≤ _
      omega
    · have := segmentsWeight_insert s i v n
      have e : s.insert i v n = s n := if_neg hi
      rw [e]
      omega

theorem segmentsWeight_none : ∀ n : Nat, segmentsWeight K (fun _ => none) n = 0
  | 0 => rfl
  | n + 1 => by rw [segmentsWeight, segmentsWeight_none n]; rfl

/-- The most that the parameters that consist of segments can take. -/
def entryWeight (K : Nat) (e : Bytes × CowSegments) : Nat := e.1.length + 2 + segmentsWeight K e.2 256

theorem cowComplexInsert_weight (n : Bytes) (i : Nat) (v : Bool × CowStr) : ∀ l : List (Bytes × CowSegments),
    ((cowComplexInsert n i v l).map (entryWeight K)).sum ≤ (l.map (entryWeight K)).sum + (n.length + K * bytesOf v.2 + 2)
  | [] => by
    simp only [cowComplexInsert, List.map_cons, List.map_nil, List.sum_cons, List.sum_nil, entryWeight]
    have := segmentsWeight_insert (K := K) (fun _ => none) i v 256
    rw [segmentsWeight_none] at this
    omega
  | (n', s) :: l => by
    have := cowComplexInsert_weight n i v l
    unfold cowComplexInsert
    split
    · simp only [List.map_cons, List.sum_cons, entryWeight]
      have := segmentsWeight_insert (K := K) s i v 256
      omega
    · simp only [List.map_cons, List.sum_cons]
      omega

theorem cowComplexInsert_names {n n' : Bytes} {i : Nat} {v : Bool × CowStr} : ∀ {l : List (Bytes × CowSegments)},
    n' ∈ (cowComplexInsert n i v l).map (·.1) → n' = n ∨ n' ∈ l.map (·.1)
  | [], h => by simpa [cowComplexInsert] using h
  | (m, s) :: l, h => by
    unfold cowComplexInsert at h
    split at h
    · exact .inr h
    · rcases List.mem_cons.mp h with h | h
      · exact .inr (List.mem_cons.mpr (.inl h))
      · exact (cowComplexInsert_names h).imp_right fun h => List.mem_cons_of_mem _ h

theorem cowComplexInsert_nodup {n : Bytes} {i : Nat} {v : Bool × CowStr} : ∀ {l : List (Bytes × CowSegments)},
    (l.map (·.1)).Nodup → ((cowComplexInsert n i v l).map (·.1)).Nodup
  | [], _ => by simp [cowComplexInsert]
  | (m, s) :: l, h => by
    unfold cowComplexInsert
    split
    · exact h
    · rename_i hm
      rw [List.map_cons, List.nodup_cons] at h ⊢
      exact ⟨fun h' => (cowComplexInsert_names h').elim hm h.1, cowComplexInsert_nodup h.2⟩

theorem cowPartition_weight (m : Memory) (hK : 1 ≤ K) : ∀ (rs : List CowRawParam) (ps : CowParams) (l : List (Bytes × CowSegments)),
    (l.map (·.1)).Nodup →
    ((cowPartition m rs (ps, l)).2.map (·.1)).Nodup ∧
    size (cowPartition m rs (ps, l)).1 + ((cowPartition m rs (ps, l)).2.map (entryWeight K)).sum ≤
      size ps + (l.map (entryWeight K)).sum + (rs.map (paramWeight K)).sum
  | [], _, _, h => ⟨h, Nat.le_refl _⟩
  | r :: rs, ps, l, h => by
    unfold cowPartition
    rw [List.map_cons, List.sum_cons]
    split
    · rename_i index _
      have ih := cowPartition_weight m hK rs ps (cowComplexInsert (r.name.content m) index (r.encoded, r.value) l)
        (cowComplexInsert_nodup h)
      have := cowComplexInsert_weight (K := K) (r.name.content m) index (r.encoded, r.value) l
      rw [content_length] at this
      refine ⟨ih.1, ?_⟩
      have ih := ih.2
      dsimp only [paramWeight] at *
      omega
    · have ih := cowPartition_weight m hK rs (cowInsert m r.name r.value ps) l h
      have := cowInsert_size m r.name r.value ps
      have := Nat.le_mul_of_pos_left (bytesOf r.value) hK
      refine ⟨ih.1, ?_⟩
      have ih := ih.2
      dsimp only [paramWeight] at *
      omega

theorem cowOrder_perm {m : Memory} {ds : List (Bytes × CowSegments)} (h : (ds.map (·.1)).Nodup) :
    (cowOrder c m ds).Perm ds := by
  unfold cowOrder
  refine ((c.mapOrder_perm _).filterMap _).trans ?_
  rw [List.filterMap_map]
  have key : ∀ l : List (Bytes × CowSegments), (∀ e ∈ l, e ∈ ds) →
      l.filterMap ((fun x : Bytes × Segments => (ds.lookup x.1).map fun s => (x.1, s)) ∘ fun x => (x.1, x.2.content m)) = l := by
    intro l
    induction l with
    | nil => exact fun _ => rfl
    | cons e l ih =>
      intro hl
      rw [List.filterMap_cons]
      dsimp only [Function.comp]
      rw [lookup_of_mem h (hl e (List.mem_cons_self ..))]
      dsimp only [Option.map_some]
      exact congrArg _ (ih fun e he => hl e (List.mem_cons_of_mem _ he))
  exact .of_eq (key ds fun _ h => h)

theorem perm_sum {l l' : List Nat} (h : l.Perm l') : l.sum = l'.sum := by
  induction h with
  | nil => rfl
  | cons a _ ih => rw [List.sum_cons, List.sum_cons, ih]
  | swap a b l => simp only [List.sum_cons]; omega
  | trans _ _ h1 h2 => exact h1.trans h2

section
variable (H : Converts K c)
include H

theorem cowFirstSegment_gives (m : Memory) (encoded : Bool) (v : CowStr) :
    Yields (cowFirstSegment c m encoded v) fun a => bytesOf a.1 ≤ K * bytesOf v := by
  unfold cowFirstSegment
  split
  · refine (H.first true _).bind fun a ha => .ok ?_
    rw [content_length] at ha
    exact ha
  · exact .ok (Nat.le_mul_of_pos_left _ (by have := H.three; omega))

theorem cowSegmentPiece_gives (m : Memory) (charset : Option Bytes) (encoded : Bool) (v : CowStr) :
    Yields (cowSegmentPiece c m charset encoded v) fun t => bytesOf t ≤ K * bytesOf v := by
  unfold cowSegmentPiece
  split
  · refine (H.param _ _).bind fun a ha => .ok ?_
    rw [content_length] at ha
    exact ha
  · exact .ok (Nat.le_mul_of_pos_left _ (by have := H.three; omega))

theorem cowSegmentsLoop_gives (m : Memory) (charset : Option Bytes) : ∀ (fuel : Nat) (s : CowSegments) (idx : Nat) (v : CowStr),
    idx < 256 → Yields (cowSegmentsLoop c m charset fuel s idx v) fun t => bytesOf t ≤ bytesOf v + segmentsWeight K s 256
  | 0, _, _, _, _ => .abort
  | fuel + 1, s, idx, v, hi => by
    unfold cowSegmentsLoop
    have he := segmentsWeight_erase (K := K) s idx hi
    split
    · exact .ok (Nat.le_add_right _ _)
    · rename_i encoded w hw
      rw [hw] at he
      dsimp only [segmentWeight] at he
      refine (cowSegmentPiece_gives H m charset encoded w).bind fun piece hp => ?_
      refine Yields.bind (P := fun n => n < 256) ?_ fun n hn => ?_
      · unfold incrementIndex
        split
        · exact .ok (by assumption)
        · split
          · exact .abort
          · exact .ok (by omega)
      · refine (cowSegmentsLoop_gives m charset fuel _ n _ hn).mono fun t ht => ?_
        rw [bytesOf_addString] at ht
        omega

theorem cowCollectOne_gives (m : Memory) (ps : CowParams) (e : Bytes × CowSegments) :
    Yields (cowCollectOne c m ps e) fun qs => size qs ≤ size ps + entryWeight K e := by
  unfold cowCollectOne
  have he := segmentsWeight_erase (K := K) e.2 0 (n := 256) (by decide)
  split
  · exact .ok (Nat.le_add_right _ _)
  · rename_i encoded v hv
    rw [hv] at he
    dsimp only [segmentWeight] at he
    refine (cowFirstSegment_gives H m encoded v).bind fun a ha => (cowSegmentsLoop_gives H m a.2 _ _ _ _ (by decide)).bind
      fun w hw => .ok ?_
    have := cowInsert_size m (.owned e.1) w ps
    dsimp only [bytesOf, entryWeight] at *
    omega

theorem cowCollectAll_gives (m : Memory) : ∀ (es : List (Bytes × CowSegments)) (ps : CowParams),
    Yields (cowCollectAll c m ps es) fun qs => size qs ≤ size ps + (es.map (entryWeight K)).sum
  | [], _ => .ok (Nat.le_add_right _ _)
  | e :: es, ps => by
    unfold cowCollectAll
    refine (cowCollectOne_gives H m ps e).bind fun qs hq => (cowCollectAll_gives m es qs).mono fun rs hr => ?_
    rw [List.map_cons, List.sum_cons]
    omega

theorem cowCollectParameters_gives (m : Memory) (rs : List CowRawParam) :
    Yields (cowCollectParameters c m rs) fun qs => size qs ≤ (rs.map (paramWeight K)).sum := by
  unfold cowCollectParameters
  have h := cowPartition_weight (K := K) m (by have := H.three; omega) rs [] [] List.nodup_nil
  refine (cowCollectAll_gives H m _ _).mono fun qs hq => ?_
  rw [perm_sum ((cowOrder_perm h.1).map _)] at hq
  have h := h.2
  rw [size_params_nil] at h
  simp only [List.map_nil, List.sum_nil] at h
  omega

end

/-! ### Fields -/

theorem keyword_light {α β : Type} [HasStrings α β] {e e2 : Bytes} {m : String} {v : α} (he : e2 = e.map swapCase)
    (hv : size v = 0) (i : Bytes) : Light K i (keyword e e2 m v i) := by
  unfold keyword
  refine (parses_times K (tagNoCase_parses (A := .none) m he) i).bind fun a ha => .ok ?_
  dsimp only
  rw [hv]
  omega

theorem cowOtherToken_light {α β : Type} [HasStrings α β] {mk : CowStr → α} (hK : 2 ≤ K)
    (hm : ∀ s, size (mk s) = bytesOf s + 1) (i : Bytes) : Light K i (cowOtherToken p mk i) := by
  unfold cowOtherToken
  refine ((cowToken_short i).light hK).bind fun a ha => .ok ?_
  dsimp only
  rw [hm, bytesOf_lowercase]
  exact ha

theorem cowMimeType_light (hK : 2 ≤ K) (i : Bytes) : Light K i (cowMimeType p i) := by
  refine matchParsers_light ?_
  simp only [List.mem_cons, List.not_mem_nil, or_false]
  rintro q (rfl | rfl | rfl | rfl | rfl | rfl | rfl | rfl)
  iterate 7 exact keyword_light (by decide +kernel) rfl i
  exact cowOtherToken_light hK (fun _ => rfl) i

theorem cowDispositionType_light (hK : 2 ≤ K) (i : Bytes) : Light K i (cowDispositionType p i) := by
  refine matchParsers_light ?_
  simp only [List.mem_cons, List.not_mem_nil, or_false]
  rintro q (rfl | rfl | rfl)
  iterate 2 exact keyword_light (by decide +kernel) rfl i
  exact cowOtherToken_light hK (fun _ => rfl) i

theorem cowEncoding_light (hK : 2 ≤ K) (i : Bytes) : Light K i (cowEncoding p i) := by
  refine matchParsers_light ?_
  simp only [List.mem_cons, List.not_mem_nil, or_false]
  rintro q (rfl | rfl | rfl | rfl | rfl | rfl)
  iterate 5 exact keyword_light (by decide +kernel) rfl i
  exact cowOtherToken_light hK (fun _ => rfl) i

/-- The most that an item of a `Content-Disposition` field can take. -/
def itemWeight (K : Nat) : CowDispositionItem → Nat
  | .filename v => bytesOf v + 1
  | .parameter r => paramWeight K r
  | _ => 0

theorem cowDispositionItem_light (hK : 2 ≤ K) (i : Bytes) :
    Yields (cowDispositionItem c p i) fun a => itemWeight K a.2 + K * a.1.length ≤ K * i.length := by
  refine matchParsers_gives ?_
  simp only [List.mem_cons, List.not_mem_nil, or_false]
  rintro q (rfl | rfl | rfl | rfl | rfl)
  · refine Yields.bind (P := fun a : Bytes × CowStr => size a.2 + K * a.1.length ≤ K * i.length) ?_ fun a ha => .ok ha
    unfold cowFilenameParameter
    refine (skipCfws_times K i).bind fun r1 h1 => (tag_times K _ (by decide)).bind fun a2 h2 => (skipCfws_times K _).bind fun r3 h3 =>
      (parses_times K (tagNoCase_parses (A := .none) _ (by decide +kernel)) _).bind fun a4 h4 =>
      (tag_times K _ (by decide)).bind fun a5 h5 => ((cowParameterValue_short _).light hK).mono fun a6 h6 => ?_
    omega
  iterate 3
    refine (parses_times K (dateParameter_parses (c := c) (by decide +kernel)) i).bind fun a ha => .ok ?_
    dsimp only [itemWeight]
    omega
  · exact (cowParameter_light hK i).bind fun a ha => .ok ha

theorem size_disposition (d : CowDisposition) :
    size d = size d.dispositionType + size d.filename + size (α := CowParams) d.unstructured := by
  have e : strings d = strings d.dispositionType ++ strings d.filename ++ strings (α := CowParams) d.unstructured := by
    show dispositionStrings d = _
    unfold dispositionStrings
    cases d.filename <;> rfl
  simp only [size, e, List.map_append, List.sum_append]

theorem size_dispositionAdd : ∀ (items : List CowDispositionItem) (d : CowDisposition),
    size (items.foldl CowDisposition.add d) + ((items.filterMap CowDispositionItem.rawParam?).map (paramWeight K)).sum ≤
      size d + (items.map (itemWeight K)).sum
  | [], _ => Nat.le_refl _
  | x :: items, d => by
    have ih := size_dispositionAdd items (d.add x)
    rw [List.foldl_cons, List.map_cons, List.sum_cons]
    have hs := size_disposition (d.add x)
    have hd := size_disposition d
    cases x with
    | filename v =>
      rw [List.filterMap_cons_none rfl]
      dsimp only [CowDisposition.add, itemWeight] at *
      rw [size_some, size_str] at hs
      omega
    | parameter r =>
      rw [List.filterMap_cons_some (f := CowDispositionItem.rawParam?) (b := r) rfl, List.map_cons, List.sum_cons]
      dsimp only [CowDisposition.add, itemWeight] at *
      omega
    | creationDate v =>
      rw [List.filterMap_cons_none rfl]
      dsimp only [CowDisposition.add, itemWeight] at *
      omega
    | modificationDate v =>
      rw [List.filterMap_cons_none rfl]
      dsimp only [CowDisposition.add, itemWeight] at *
      omega
    | readDate v =>
      rw [List.filterMap_cons_none rfl]
      dsimp only [CowDisposition.add, itemWeight] at *
      omega

theorem foldl_add_unstructured : ∀ (items : List CowDispositionItem) (d : CowDisposition),
    (items.foldl CowDisposition.add d).unstructured = d.unstructured
  | [], _ => rfl
  | x :: items, d => by
    rw [List.foldl_cons, foldl_add_unstructured items]
    cases x <;> rfl

variable (H : Converts K c)
include H

theorem cowContentTypeValue_light (i : Bytes) : Light K i (cowContentTypeValue c p i) := by
  unfold cowContentTypeValue
  refine (skipCfws_times K i).bind fun r1 h1 => (cowMimeType_light H.two _).bind fun a2 h2 =>
    (tag_times K _ (by decide)).bind fun a3 h3 => ((cowToken_short _).light H.two).bind fun a4 h4 =>
    (many_gives (g := paramWeight K) (cowParameter_light H.two) _).bind fun a5 h5 =>
    (cowCollectParameters_gives H _ _).bind fun ps h6 =>
    (parses_times K (ignoreInlineCfws_parses (c := c)) _).bind fun a7 h7 => .ok ?_
  dsimp only at *
  rw [size_pair, size_pair, size_str, bytesOf_lowercase]
  rw [size_str] at h4
  omega

theorem cowContentDispositionValue_light (i : Bytes) : Light K i (cowContentDispositionValue c p i) := by
  unfold cowContentDispositionValue
  refine (skipCfws_times K i).bind fun r1 h1 => (cowDispositionType_light H.two _).bind fun a2 h2 =>
    (many_gives (g := itemWeight K) (cowDispositionItem_light H.two) _).bind fun a3 h3 =>
    (cowCollectParameters_gives H _ _).bind fun ps h4 =>
    (parses_times K (ignoreInlineCfws_parses (c := c)) _).bind fun a5 h5 => .ok ?_
  have h := size_dispositionAdd (K := K) a3.2 ⟨a2.2, none, none, none, none, []⟩
  have e := foldl_add_unstructured a3.2 ⟨a2.2, none, none, none, none, []⟩
  dsimp only at *
  generalize a3.2.foldl CowDisposition.add ⟨a2.2, none, none, none, none, []⟩ = d at *
  rw [size_disposition, size_disposition (CowDisposition.mk ..), e] at h
  rw [size_disposition]
  dsimp only at *
  rw [size_none] at h
  omega

theorem cowEncodingValue_light (i : Bytes) : Light K i (cowEncodingValue c p i) := by
  unfold cowEncodingValue
  refine (skipCfws_times K i).bind fun r1 h1 => (cowEncoding_light H.two _).bind fun a2 h2 =>
    (parses_times K (ignoreInlineCfws_parses (c := c)) _).bind fun a3 h3 => .ok ?_
  dsimp only at *
  omega

end EmailParser
