import Verif.Proofs.BorrowAddress
import Verif.Proofs.Params
/-
The values of MIME header fields: agreement with the model without ownership, and the reasons to copy.
-/
namespace EmailParser
open Spec HasStrings

variable {c : Cfg} {p : Place} {lo : Nat}

/-! ### Tokens -/

theorem lower_of_upper : ∀ b : UInt8, (65 ≤ b && b ≤ 90) = true → asciiLower b ≠ b := by decide +kernel

theorem lower_of_other : ∀ b : UInt8, (65 ≤ b && b ≤ 90) = false → asciiLower b = b := by decide +kernel

theorem lowercase_ne {u : Bytes} (h : u.any (fun b => 65 ≤ b && b ≤ 90) = true) : u ≠ lowercase u := by
  intro e
  obtain ⟨b, hb, hu⟩ := List.any_eq_true.mp h
  obtain ⟨a, r, rfl⟩ := List.append_of_mem hb
  simp only [lowercase, List.map_append, List.map_cons] at e
  have := List.append_inj e (by simp)
  exact lower_of_upper b hu (List.cons.inj this.2).1.symm

theorem lowercase_same : ∀ {u : Bytes}, u.any (fun b => 65 ≤ b && b ≤ 90) = false → lowercase u = u
  | [], _ => rfl
  | b :: u, h => by
    rw [List.any_cons, Bool.or_eq_false_iff] at h
    show asciiLower b :: lowercase u = b :: u
    rw [lower_of_other b h.1, lowercase_same h.2]

theorem Keeps.lowercase {w u : Bytes} {s : CowStr} (h : Keeps p lo w u s) (hu : u <:+: w) :
    Keeps p lo w (EmailParser.lowercase u) (cowLowercase p.memory s) := by
  have hc : s.content p.memory = u := h.1
  unfold cowLowercase
  rw [hc]
  split
  · rename_i hany
    refine .str .owned fun x hx => ?_
    cases hx
    exact .inr (.inr (.inr (.inr (.inl ⟨u, hu, lowercase_ne hany, rfl⟩))))
  · rename_i hany
    rw [lowercase_same (by simpa using hany)]
    exact h

/-- The text has the value in it. -/
def KeepsText (p : Place) (lo : Nat) (w v : Bytes) (s : CowStr) : Prop := Keeps p lo w v s ∧ v <:+: w

theorem cowToken_reads {i : Bytes} (hi : Here p lo i) : Alike (cowToken p i) (token i) (ReadsTo (KeepsText p lo) i) := by
  unfold cowToken token
  cases h : takeWhile1 i isTokenChar with
  | ok a =>
    obtain ⟨hs, -, -⟩ := takeWhile1_split h
    subst hs
    exact .ok ⟨a.2, rfl, keeps_slice (u := []) hi, List.infix_rfl⟩
  | err e => rfl
  | abort k => rfl

/-- The number of a part of a parameter. -/
def StarDigit (w : Bytes) : Prop := ∃ d, Spec.digit d = true ∧ [42, d] <:+: w

theorem StarDigit.mono {w w' : Bytes} (h : StarDigit w) (hw : w <:+: w') : StarDigit w' := by
  obtain ⟨d, hd, h⟩ := h
  exact ⟨d, hd, h.trans hw⟩

theorem StarDigit.reason {w v : Bytes} (h : StarDigit w) : CopyReason w v := .inr (.inr (.inr (.inr (.inr h))))

/-- The name of a parameter. -/
def KeepsName (p : Place) (lo : Nat) (w : Bytes) (v : Bytes × Option Nat × Bool) (s : CowStr × Option Nat × Bool) : Prop :=
  KeepsText p lo w v.1 s.1 ∧ s.2 = v.2 ∧ (v.2.1.isSome = true → StarDigit w)

theorem cowExtendedName_reads {i : Bytes} (hi : Here p lo i) :
    Alike (cowExtendedName p i) (extendedName i) (ReadsTo (KeepsName p lo) i) := by
  unfold cowExtendedName
  have := extendedName_parses (A := .none) i
  cases h : extendedName i with
  | ok a =>
    rw [h] at this
    obtain ⟨w, hw, w1, w2, name, rfl, ⟨rfl, -, -⟩, w3, w4, index, rfl, hx, h4⟩ := this
    obtain ⟨r, n, ix, e⟩ := a
    obtain ⟨w5, w6, enc, rfl, -, rfl, hv⟩ := h4
    dsimp only at hw hv
    cases hv
    subst hw
    refine .ok ⟨name ++ (w3 ++ (w5 ++ [])), rfl, ⟨?_, infix_left List.infix_rfl⟩, rfl, fun hs => ?_⟩
    · have := keeps_slice (p := p) (lo := lo) (u := []) (v := name) (r := w3 ++ (w5 ++ []) ++ r) (w := name ++ (w3 ++ (w5 ++ [])))
        (by simpa using hi)
      simpa using this
    · rcases hx with ⟨-, rfl⟩ | ⟨k, rfl, w7, w8, ⟨⟩, rfl, rfl, hx⟩
      · cases hs
      · obtain ⟨⟨ds, -, rfl, hne, hd⟩, -⟩ := hx
        obtain ⟨d, t, rfl⟩ := List.exists_cons_of_ne_nil hne
        exact ⟨d, hd d (by simp), name, t ++ (w5 ++ []), by simp⟩
  | err e => rfl
  | abort k => rfl

theorem cowParameterValue_reads {i : Bytes} (hi : Here p lo i) :
    Alike (cowParameterValue c p i) (parameterValue c i) (ReadsTo (Keeps p lo) i) := by
  refine .matchParsers ?_ (.matchParsers (cowQuotedString_reads hi) .matchNil)
  refine ((cowToken_reads hi).mono fun _ _ _ _ ⟨w, e, h⟩ => ⟨w, e, h.1⟩).mapRight (f := id) (R := ReadsTo (Keeps p lo) i)
    fun _ _ _ h => h

/-- A parameter. -/
def KeepsParam (p : Place) (lo : Nat) (w : Bytes) (v : RawParam) (s : CowRawParam) : Prop :=
  Keeps p lo w v.name s.name ∧ s.index = v.index ∧ s.encoded = v.encoded ∧ Keeps p lo w v.value s.value ∧
    (v.index.isSome = true → StarDigit w)

theorem keepsParam_grows : Grows (KeepsParam p lo) := fun _ _ _ _ h hw =>
  ⟨h.1.mono hw, h.2.1, h.2.2.1, h.2.2.2.1.mono hw, fun hs => (h.2.2.2.2 hs).mono hw⟩

theorem cowParameter_reads {i : Bytes} (hi : Here p lo i) :
    Alike (cowParameter c p i) (parameter c i) (ReadsTo (KeepsParam p lo) i) := by
  unfold cowParameter parameter
  refine .skipCfws hi fun w1 r hr => ?_
  refine tag_reads.next hr fun w2 r _ _ _ hr => ?_
  refine .skipCfws hr fun w3 r hr => ?_
  have hname : Alike (matchParsers r [cowExtendedName p, fun input => do
        let (input, name) ← cowToken p input
        .ok (input, (name, none, false))])
      (matchParsers r [extendedName, fun input => do
        let (input, name) ← token input
        .ok (input, (name, none, false))]) (ReadsTo (KeepsName p lo) r) := by
    refine .matchParsers (cowExtendedName_reads hr) (.matchParsers ?_ .matchNil)
    exact (cowToken_reads hr).bind fun r v s _ ⟨w, e, h⟩ => .ok ⟨w, e, h, rfl, by intro h; cases h⟩
  refine hname.next hr ?_
  rintro w4 r ⟨name, index, encoded⟩ ⟨name', index', encoded'⟩ ⟨⟨hn, ht⟩, hx, hstar⟩ hr
  cases hx
  refine tag_reads.next hr fun w5 r _ _ _ hr => ?_
  refine (cowParameterValue_reads hr).next hr fun w6 r v s hs hr => .ok (.here ?_)
  exact ⟨(hn.lowercase ht).mono (by infx), rfl, rfl, hs.mono (by infx), fun h => (hstar h).mono (by infx)⟩

/-! ### Outcomes without rest -/

/-- Two outcomes are the same, except that the values are related in another way. -/
def AlikeO {α β : Type} (x : Outcome α) (y : Outcome β) (R : β → α → Prop) : Prop :=
  match x, y with
  | .ok s, .ok v => R v s
  | .err e, .err e' => e = e'
  | .abort k, .abort k' => k = k'
  | _, _ => False

theorem AlikeO.bind {α β γ δ : Type} {x : Outcome α} {y : Outcome β} {R : β → α → Prop} {R' : δ → γ → Prop}
    {f : α → Outcome γ} {g : β → Outcome δ} (h : AlikeO x y R) (hf : ∀ v s, R v s → AlikeO (f s) (g v) R') :
    AlikeO (x >>= f) (y >>= g) R' := by
  unfold AlikeO at h
  split at h
  · exact hf _ _ h
  · exact h
  · exact h
  · exact h.elim

theorem AlikeO.mono {α β : Type} {x : Outcome α} {y : Outcome β} {R R' : β → α → Prop} (h : AlikeO x y R)
    (hR : ∀ v s, R v s → R' v s) : AlikeO x y R' := by
  unfold AlikeO at h ⊢
  split at h
  · exact hR _ _ h
  · exact h
  · exact h
  · exact h.elim

theorem AlikeO.same {α : Type} (x : Outcome α) : AlikeO x x fun v s => s = v := by
  cases x <;> rfl

theorem AlikeO.bindRes {α β γ δ : Type} {x : Outcome α} {y : Outcome β} {R : β → α → Prop} {R' : Bytes → δ → γ → Prop}
    {f : α → Res γ} {g : β → Res δ} (h : AlikeO x y R) (hf : ∀ v s, R v s → Alike (f s) (g v) R') :
    Alike (x >>= f) (y >>= g) R' := by
  unfold AlikeO at h
  split at h
  · exact hf _ _ h
  · exact h
  · exact h
  · exact h.elim

theorem Alike.bindOut {α β γ δ : Type} {x : Res α} {y : Res β} {R : Bytes → β → α → Prop} {R' : δ → γ → Prop}
    {f : Bytes × α → Outcome γ} {g : Bytes × β → Outcome δ} (h : Alike x y R)
    (hf : ∀ r v s, R r v s → AlikeO (f (r, s)) (g (r, v)) R') : AlikeO (x >>= f) (y >>= g) R' := by
  unfold Alike at h
  split at h
  · obtain ⟨rfl, h⟩ := h
    exact hf _ _ _ h
  · exact h
  · exact h
  · exact h.elim

/-! ### Collecting the parameters -/

theorem cowInsert_content (m : Memory) (name value : CowStr) : ∀ ps : CowParams,
    cowParams m (cowInsert m name value ps) = (cowParams m ps).insert (name.content m) (value.content m)
  | [] => by
    funext n
    simp only [cowInsert, cowParams, cowPairs, List.map_cons, List.map_nil, List.lookup, Params.insert]
    by_cases h : n = name.content m
    · simp [h]
    · rw [if_neg h, beq_eq_false_iff_ne.mpr h]
  | (n', v') :: ps => by
    have ih := cowInsert_content m name value ps
    funext n
    have ih := congrFun ih n
    simp only [cowParams, cowPairs, Params.insert] at ih
    have e : cowInsert m name value ((n', v') :: ps) =
      if n'.content m = name.content m then (n', value) :: ps else (n', v') :: cowInsert m name value ps := rfl
    rw [e]
    by_cases h : n'.content m = name.content m
    · rw [if_pos h]
      simp only [cowParams, cowPairs, List.map_cons, List.lookup, Params.insert, h]
      by_cases hn : n = name.content m
      · simp [hn]
      · rw [if_neg hn, beq_eq_false_iff_ne.mpr hn]
    · rw [if_neg h]
      show List.lookup n ((n'.content m, v'.content m) :: List.map (fun x => (CowStr.content m x.1, CowStr.content m x.2))
        (cowInsert m name value ps)) = _
      simp only [cowParams, cowPairs, List.map_cons, List.lookup, Params.insert]
      by_cases hn : n = n'.content m
      · subst hn
        simp [h]
      · rw [beq_eq_false_iff_ne.mpr hn]
        exact ih

theorem cowInsert_strings {m : Memory} {name value : CowStr} {t : CowStr} : ∀ {ps : CowParams},
    t ∈ pairStrings (cowInsert m name value ps) → t = name ∨ t = value ∨ t ∈ pairStrings ps
  | [], h => by
    rcases List.mem_cons.mp h with h | h
    · exact .inl h
    · exact .inr (.inl (List.mem_singleton.mp h))
  | (n', v') :: ps, h => by
    have e : cowInsert m name value ((n', v') :: ps) =
      if n'.content m = name.content m then (n', value) :: ps else (n', v') :: cowInsert m name value ps := rfl
    rw [e] at h
    split at h
    · rcases List.mem_cons.mp (show t ∈ n' :: value :: pairStrings ps from h) with h | h
      · exact .inr (.inr (List.mem_cons.mpr (.inl h)))
      · rcases List.mem_cons.mp h with h | h
        · exact .inr (.inl h)
        · exact .inr (.inr (List.mem_cons_of_mem _ (List.mem_cons_of_mem _ h)))
    · rcases List.mem_cons.mp (show t ∈ n' :: v' :: pairStrings (cowInsert m name value ps) from h) with h | h
      · exact .inr (.inr (List.mem_cons.mpr (.inl h)))
      · rcases List.mem_cons.mp h with h | h
        · exact .inr (.inr (List.mem_cons_of_mem _ (List.mem_cons.mpr (.inl h))))
        · rcases cowInsert_strings h with h | h | h
          · exact .inl h
          · exact .inr (.inl h)
          · exact .inr (.inr (List.mem_cons_of_mem _ (List.mem_cons_of_mem _ h)))

theorem Keeps.insert {w n v : Bytes} {s t : CowStr} {ps : Params} {qs : CowParams} (hp : Keeps p lo w ps qs)
    (hn : Keeps p lo w n s) (hv : Keeps p lo w v t) : Keeps p lo w (ps.insert n v) (cowInsert p.memory s t qs) := by
  refine ⟨?_, fun x hx => ?_⟩
  · show cowParams _ _ = _
    rw [cowInsert_content]
    have h1 : cowParams p.memory qs = ps := hp.1
    have h2 : s.content p.memory = n := hn.1
    have h3 : t.content p.memory = v := hv.1
    rw [h1, h2, h3]
  · rcases cowInsert_strings hx with rfl | rfl | h
    · exact hn.2 _ (List.mem_singleton.mpr rfl)
    · exact hv.2 _ (List.mem_singleton.mpr rfl)
    · exact hp.2 x h

/-- The segments of a parameter. -/
def KeepsSegments (p : Place) (lo : Nat) (v : Segments) (s : CowSegments) : Prop :=
  s.content p.memory = v ∧ ∀ i e t, s i = some (e, t) → Within lo p.stop t

theorem KeepsSegments.insert {v : Segments} {s : CowSegments} (h : KeepsSegments p lo v s) {k : Nat} {e : Bool} {x : Bytes}
    {t : CowStr} (ht : Inside p lo x t) : KeepsSegments p lo (v.insert k (e, x)) (s.insert k (e, t)) := by
  refine ⟨?_, fun i e' t' hi => ?_⟩
  · funext i
    have := congrFun h.1 i
    simp only [CowSegments.content, CowSegments.insert, Segments.insert] at this ⊢
    split
    · simp [ht.1]
    · exact this
  · simp only [CowSegments.insert] at hi
    split at hi
    · cases hi
      exact ht.2
    · exact h.2 i e' t' hi

theorem KeepsSegments.erase {v : Segments} {s : CowSegments} (h : KeepsSegments p lo v s) {k : Nat} :
    KeepsSegments p lo (v.erase k) (s.erase k) := by
  refine ⟨?_, fun i e' t' hi => ?_⟩
  · funext i
    have := congrFun h.1 i
    simp only [CowSegments.content, CowSegments.erase, Segments.erase] at this ⊢
    split
    · rfl
    · exact this
  · simp only [CowSegments.erase] at hi
    split at hi
    · cases hi
    · exact h.2 i e' t' hi

/-- The parameters that have parts. -/
def KeepsComplex (p : Place) (lo : Nat) (v : List (Bytes × Segments)) (s : List (Bytes × CowSegments)) : Prop :=
  (s.map fun (n, s) => (n, s.content p.memory)) = v ∧ ∀ e ∈ s, KeepsSegments p lo (e.2.content p.memory) e.2

theorem KeepsComplex.insert {k : Nat} {e : Bool} {n x : Bytes} {t : CowStr} (ht : Inside p lo x t) :
    ∀ {v : List (Bytes × Segments)} {s : List (Bytes × CowSegments)}, KeepsComplex p lo v s →
    KeepsComplex p lo (complexInsert n k (e, x) v) (cowComplexInsert n k (e, t) s)
  | v, [], h => by
    obtain rfl : [] = v := h.1
    have h0 : KeepsSegments p lo (fun _ => none) (fun _ => none) := ⟨rfl, fun i e t h => by cases h⟩
    have := h0.insert (k := k) (e := e) ht
    refine ⟨?_, fun e' he => ?_⟩
    · show [(n, _)] = [(n, _)]
      rw [this.1]
    · obtain rfl := List.mem_singleton.mp he
      exact ⟨rfl, this.2⟩
  | v, (n', s') :: s, h => by
    obtain ⟨rfl, hs⟩ := h
    have ih := KeepsComplex.insert (k := k) (e := e) (n := n) ht (s := s) ⟨rfl, fun e he => hs e (List.mem_cons_of_mem _ he)⟩
    have h0 := (hs (n', s') (List.mem_cons_self ..)).insert (k := k) (e := e) ht
    simp only [List.map_cons, complexInsert, cowComplexInsert]
    by_cases hn : n' = n
    · rw [if_pos hn, if_pos hn]
      refine ⟨?_, fun e' he => ?_⟩
      · rw [List.map_cons]
        exact congrArg (· :: _) (congrArg (Prod.mk n') h0.1)
      · rcases List.mem_cons.mp he with rfl | he
        · exact ⟨rfl, h0.2⟩
        · exact hs e' (List.mem_cons_of_mem _ he)
    · rw [if_neg hn, if_neg hn]
      refine ⟨?_, fun e' he => ?_⟩
      · rw [List.map_cons]
        exact congrArg _ ih.1
      · rcases List.mem_cons.mp he with rfl | he
        · exact hs _ (List.mem_cons_self ..)
        · exact ih.2 e' he

theorem Keeps.inside {w v : Bytes} {s : CowStr} (h : Keeps p lo w v s) : Inside p lo v s :=
  ⟨h.1, (h.2 s (List.mem_singleton.mpr rfl)).1⟩

theorem cowPartition_keeps {w : Bytes} : ∀ {vs : List RawParam} {ss : List CowRawParam}, All2 (KeepsParam p lo) w vs ss →
    ∀ {ps : Params} {qs : CowParams} {cs : List (Bytes × Segments)} {ds : List (Bytes × CowSegments)},
    Keeps p lo w ps qs → KeepsComplex p lo cs ds → (cs.map (·.1)).Nodup → (cs ≠ [] → StarDigit w) →
    Keeps p lo w (partitionParameters vs (ps, cs)).1 (cowPartition p.memory ss (qs, ds)).1 ∧
    KeepsComplex p lo (partitionParameters vs (ps, cs)).2 (cowPartition p.memory ss (qs, ds)).2 ∧
    ((partitionParameters vs (ps, cs)).2.map (·.1)).Nodup ∧
    ((partitionParameters vs (ps, cs)).2 ≠ [] → StarDigit w)
  | [], [], _, _, _, _, _, h1, h2, h3, h4 => ⟨h1, h2, h3, h4⟩
  | v :: vs, s :: ss, ⟨⟨hn, hi, he, hv, hs⟩, hrest⟩, ps, qs, cs, ds, h1, h2, h3, h4 => by
    unfold partitionParameters cowPartition
    rw [hi, he]
    cases hx : v.index with
    | some k =>
      have hstar := hs (by rw [hx]; rfl)
      have h1' : s.name.content p.memory = v.name := hn.1
      dsimp only
      rw [h1']
      exact cowPartition_keeps hrest h1 (h2.insert hv.inside) (complexInsert_nodup h3) fun _ => hstar
    | none => exact cowPartition_keeps hrest (h1.insert hn hv) h2 h3 h4
  | [], _ :: _, h, _, _, _, _, _, _, _, _ => h.elim
  | _ :: _, [], h, _, _, _, _, _, _, _, _ => h.elim

theorem cowFirstSegment_inside {v : Bytes} {s : CowStr} (h : Inside p lo v s) {e : Bool} :
    AlikeO (cowFirstSegment c p.memory e s) (firstSegment c e v) fun a b => Inside p lo a.1 b.1 ∧ b.2 = a.2 := by
  unfold cowFirstSegment
  rw [h.1]
  cases e with
  | true =>
    rw [if_pos rfl]
    cases firstSegment c true v with
    | ok a => exact ⟨.owned, rfl⟩
    | err e => rfl
    | abort k => rfl
  | false => exact ⟨h, rfl⟩

theorem cowSegmentPiece_inside {v : Bytes} {s : CowStr} (h : Inside p lo v s) {cs : Option Bytes} {e : Bool} :
    AlikeO (cowSegmentPiece c p.memory cs e s) (segmentPiece c cs e v) (Inside p lo) := by
  unfold cowSegmentPiece segmentPiece
  rw [h.1]
  cases e with
  | true =>
    cases cs with
    | some cs =>
      dsimp only
      cases decodeParameter c v cs with
      | ok a => exact .owned
      | err e => rfl
      | abort k => rfl
    | none => exact h
  | false => exact h

theorem cowSegmentsLoop_inside {cs : Option Bytes} : ∀ fuel {v : Segments} {s : CowSegments} (k : Nat) {x : Bytes} {t : CowStr},
    KeepsSegments p lo v s → Inside p lo x t →
    AlikeO (cowSegmentsLoop c p.memory cs fuel s k t) (segmentsLoop c cs fuel v k) fun y u => Inside p lo (x ++ y) u
  | 0, _, _, _, _, _, _, _ => rfl
  | fuel + 1, v, s, k, x, t, h, ht => by
    unfold cowSegmentsLoop segmentsLoop
    have hk := congrFun h.1 k
    simp only [CowSegments.content] at hk
    cases hs : s k with
    | none =>
      rw [hs] at hk
      rw [← hk]
      show Inside p lo (x ++ []) t
      simpa using ht
    | some a =>
      obtain ⟨e, y⟩ := a
      rw [hs] at hk
      rw [← hk]
      refine (cowSegmentPiece_inside ⟨rfl, h.2 k e y hs⟩).bind fun a b hab => ?_
      refine (AlikeO.same (incrementIndex c k)).bind fun n n' hn => ?_
      subst hn
      have ih := cowSegmentsLoop_inside (cs := cs) fuel n' (h.erase (k := k)) (ht.add hab)
      have : AlikeO (cowSegmentsLoop c p.memory cs fuel (s.erase k) n' (addString p.memory t b) >>= fun a => .ok a)
          (segmentsLoop c cs fuel (v.erase k) n' >>= fun rest => .ok (a ++ rest)) fun y u => Inside p lo (x ++ y) u :=
        ih.bind fun v s h => by
          show Inside p lo _ _
          simpa using h
      revert this
      cases cowSegmentsLoop c p.memory cs fuel (s.erase k) n' (addString p.memory t b) <;> exact id

theorem cowCollectOne_keeps {w : Bytes} (hw : StarDigit w) {ps : Params} {qs : CowParams} (h : Keeps p lo w ps qs) {n : Bytes}
    {v : Segments} {s : CowSegments} (hs : KeepsSegments p lo v s) :
    AlikeO (cowCollectOne c p.memory qs (n, s)) (collectOne c ps (n, v)) (Keeps p lo w) := by
  unfold cowCollectOne collectOne
  have hk := congrFun hs.1 0
  simp only [CowSegments.content] at hk
  dsimp only
  cases h0 : s 0 with
  | none =>
    rw [h0] at hk
    rw [← hk]
    exact h
  | some a =>
    obtain ⟨e, y⟩ := a
    rw [h0] at hk
    rw [← hk]
    refine (cowFirstSegment_inside ⟨rfl, hs.2 0 e y h0⟩).bind fun a b hab => ?_
    obtain ⟨b1, b2⟩ := b
    obtain ⟨hab, hb⟩ := hab
    dsimp only at hab hb ⊢
    rw [hb]
    refine (cowSegmentsLoop_inside 257 1 hs.erase hab).bind fun v s hv => ?_
    exact h.insert (.str .owned fun _ _ => hw.reason) (.str hv fun _ _ => hw.reason)

theorem cowCollectAll_keeps {w : Bytes} (hw : StarDigit w) : ∀ {ps : Params} {qs : CowParams} {ds : List (Bytes × CowSegments)},
    Keeps p lo w ps qs → (∀ e ∈ ds, KeepsSegments p lo (e.2.content p.memory) e.2) →
    AlikeO (cowCollectAll c p.memory qs ds) (collectAll c ps (ds.map fun (n, s) => (n, s.content p.memory))) (Keeps p lo w)
  | _, _, [], h, _ => h
  | ps, qs, (n, s) :: ds, h, hd => by
    unfold cowCollectAll
    rw [List.map_cons, collectAll]
    refine (cowCollectOne_keeps hw h (hd _ (List.mem_cons_self ..))).bind fun ps qs h => ?_
    exact cowCollectAll_keeps hw h fun e he => hd e (List.mem_cons_of_mem _ he)

theorem lookup_of_mem {α : Type} : ∀ {l : List (Bytes × α)} {n : Bytes} {s : α}, (l.map (·.1)).Nodup → (n, s) ∈ l →
    l.lookup n = some s
  | (n', s') :: l, n, s, hl, h => by
    rw [List.map_cons, List.nodup_cons] at hl
    rcases List.mem_cons.mp h with h | h
    · cases h
      simp [List.lookup]
    · have : n ≠ n' := by
        intro e
        rw [← e] at hl
        exact hl.1 (List.mem_map_of_mem (f := (·.1)) h)
      rw [List.lookup, beq_eq_false_iff_ne.mpr this]
      exact lookup_of_mem hl.2 h

theorem mem_of_lookup {α : Type} : ∀ {l : List (Bytes × α)} {n : Bytes} {s : α}, l.lookup n = some s → (n, s) ∈ l
  | (n', s') :: l, n, s, h => by
    rw [List.lookup] at h
    split at h
    · rename_i hb
      cases h
      rw [beq_iff_eq.mp hb]
      exact List.mem_cons_self ..
    · exact List.mem_cons_of_mem _ (mem_of_lookup h)

theorem cowOrder_content {m : Memory} {ds : List (Bytes × CowSegments)} (h : (ds.map (·.1)).Nodup) :
    ((cowOrder c m ds).map fun (n, s) => (n, s.content m)) = c.mapOrder (ds.map fun (n, s) => (n, s.content m)) := by
  unfold cowOrder
  have key : ∀ l : List (Bytes × Segments), (∀ e ∈ l, e ∈ ds.map fun (n, s) => (n, s.content m)) →
      ((l.filterMap fun (n, _) => (ds.lookup n).map fun s => (n, s)).map fun (n, s) => (n, CowSegments.content m s)) = l := by
    intro l
    induction l with
    | nil => exact fun _ => rfl
    | cons e l ih =>
      intro hl
      obtain ⟨⟨n, s⟩, hd, rfl⟩ := List.mem_map.mp (hl e (List.mem_cons_self ..))
      rw [List.filterMap_cons]
      dsimp only
      rw [lookup_of_mem h hd]
      dsimp only [Option.map_some]
      rw [List.map_cons, ih fun e he => hl e (List.mem_cons_of_mem _ he)]
  exact key _ fun e he => (c.mapOrder_perm _).mem_iff.mp he

theorem cowOrder_mem {m : Memory} {ds : List (Bytes × CowSegments)} {e : Bytes × CowSegments} (h : e ∈ cowOrder c m ds) :
    e ∈ ds := by
  obtain ⟨a, -, ha⟩ := List.mem_filterMap.mp h
  cases hl : ds.lookup a.1 with
  | none => simp [hl] at ha
  | some s =>
    simp only [hl, Option.map_some, Option.some.injEq] at ha
    rw [← ha]
    exact mem_of_lookup hl

theorem cowCollectParameters_keeps {w : Bytes} {vs : List RawParam} {ss : List CowRawParam}
    (h : All2 (KeepsParam p lo) w vs ss) :
    AlikeO (cowCollectParameters c p.memory ss) (collectParameters c vs) (Keeps p lo w) := by
  have h0 : Keeps (α := CowParams) p lo w Params.empty [] := ⟨rfl, fun t ht => by cases ht⟩
  obtain ⟨h1, h2, h3, h4⟩ := cowPartition_keeps h h0 (cs := []) (ds := []) ⟨rfl, fun e he => by cases he⟩ List.nodup_nil
    (fun h => absurd rfl h)
  unfold cowCollectParameters collectParameters
  dsimp only
  generalize partitionParameters vs (Params.empty, []) = a at *
  generalize cowPartition p.memory ss ([], []) = b at *
  obtain ⟨ps, cs⟩ := a
  obtain ⟨qs, ds⟩ := b
  dsimp only at h1 h2 h3 h4 ⊢
  obtain ⟨rfl, hd⟩ := h2
  by_cases hne : (ds.map fun (n, s) => (n, CowSegments.content p.memory s)) = []
  · rw [List.map_eq_nil_iff] at hne
    subst hne
    have e1 : cowOrder c p.memory [] = [] := by
      cases hc : cowOrder c p.memory [] with
      | nil => rfl
      | cons e l =>
        have := cowOrder_mem (c := c) (m := p.memory) (ds := []) (e := e) (by rw [hc]; exact List.mem_cons_self ..)
        cases this
    have e2 : c.mapOrder (([] : List (Bytes × CowSegments)).map fun (n, s) => (n, s.content p.memory)) = [] :=
      List.Perm.eq_nil (c.mapOrder_perm [])
    rw [e1, e2]
    exact h1
  · have hn : (ds.map (·.1)).Nodup := by
      rw [List.map_map] at h3
      exact h3
    rw [← cowOrder_content hn]
    exact cowCollectAll_keeps (h4 hne) h1 fun e he => hd e (cowOrder_mem he)

end EmailParser
