import Verif.Spec.Join
import Verif.Props.Exact
/-
Lists with commas between their members, for the layouts of header values.
-/
namespace EmailParser
open Spec

variable {c : Cfg}

theorem commas_join {α : Type} {L : Bytes → α → Prop} {w w' : Bytes} {v v' : List α} (h : Commas L w v)
    (h' : Commas L w' v') : Commas L (w ++ 44 :: w') (v ++ v') := by
  induction h with
  | one h => exact .cons h h'
  | cons h _ ih =>
    rw [List.append_assoc]
    exact .cons h ih

theorem commas_apart {α : Type} {L : Bytes → α → Prop} {w : Bytes} {v : List α} (h : Commas L w v) :
    ∃ ws : List Bytes, ws ≠ [] ∧ w = withCommas ws ∧ ws.length = v.length ∧ ∀ p ∈ ws.zip v, L p.1 p.2 := by
  induction h with
  | @one w v h => exact ⟨[w], by simp, rfl, rfl, by simpa using h⟩
  | @cons w v s vs h _ ih =>
    obtain ⟨ws, hne, rfl, hl, hp⟩ := ih
    refine ⟨w :: ws, by simp, ?_, by simp [hl], ?_⟩
    · cases ws with
      | nil => exact absurd rfl hne
      | cons => rfl
    · simp only [List.zip_cons_cons, List.mem_cons]
      rintro p (rfl | hm)
      · exact h
      · exact hp p hm

theorem solid_behind {u w : Bytes} {a : UInt8} (ha : Spec.wsp a = false) (h : Solid w) : Solid (u ++ a :: w) := by
  intro x b e
  rcases List.eq_nil_or_concat w with rfl | ⟨w', b', rfl⟩
  · have := (List.append_inj' e rfl).2
    cases this
    exact ha
  · have e' : (u ++ a :: w') ++ [b'] = x ++ [b] := by simpa using e
    have := (List.append_inj' e' rfl).2
    cases this
    exact h w' _ (by simp)

/-- A line that is read as a field of its kind is one of the layouts of that field. -/
theorem read_value {name x w l t : Bytes} {f : Field} (h : HeaderText name x w l) (hp : Plain c name w)
    (ht : Stops Spec.wsp t) (hf : field c (l ++ t) = .ok (t, f)) (ho : headerOf f = some (name.map asciiLower)) :
    FieldG c l f ∧ Recognized c.feat (name.map asciiLower) ∧ ValueL c w f := by
  have hg : FieldG c l f := by
    have hs := field_parses (c := c) (l ++ t)
    rw [hf] at hs
    obtain ⟨l', e, hg⟩ := hs
    rwa [← List.append_cancel_right e] at hg
  have he := ((C74_iff c name x w l t h hp ht).mp ⟨f, hf, ho⟩).2
  obtain ⟨f', h1, h2, -⟩ := field_exact hg h ho hp he
  have hr := fieldG_recognized hg ho
  have := known_field (r := t) (h2.trans ho) hr rfl h1 ht
  rw [← h.text, hf] at this
  cases this
  exact ⟨hg, hr, h1⟩

theorem value_join {w w' : Bytes} {f f' g : Field} (h : ValueL c w f) (h' : ValueL c w' f') (hg : together f f' = some g) :
    ValueL c (w ++ 44 :: w') g ∧ headerOf g = headerOf f := by
  have key : ∀ {α : Type} {L : Bytes → α → Prop} {v v' : List α}, Commas L w v ∧ Solid w → Commas L w' v' ∧ Solid w' →
      Commas L (w ++ 44 :: w') (v ++ v') ∧ Solid (w ++ 44 :: w') := fun a b =>
    ⟨commas_join a.1 b.1, solid_behind (by decide) b.2⟩
  unfold together at hg
  split at hg <;> cases hg
  · exact ⟨key h h', rfl⟩
  · exact ⟨key h h', rfl⟩
  · exact ⟨key h h', rfl⟩
  · exact ⟨key h h', rfl⟩
  · rcases h with ⟨h | ⟨e, -⟩, hs⟩
    · rcases h' with ⟨h' | ⟨e, -⟩, hs'⟩
      · have := key ⟨h, hs⟩ ⟨h', hs'⟩
        exact ⟨⟨.inl this.1, this.2⟩, rfl⟩
      · cases e
    · cases e
  · exact ⟨key h h', rfl⟩

theorem zip_map_mem {α β γ : Type} {P : β → γ → Prop} {g : α → γ} {ws : List β} {v : List α}
    (h : ∀ p ∈ ws.zip v, P p.1 (g p.2)) : ∀ p ∈ ws.zip (v.map g), P p.1 p.2 := by
  intro p hp
  rw [List.zip_map_right] at hp
  obtain ⟨q, hq, rfl⟩ := List.mem_map.1 hp
  exact h q hq

theorem value_apart {w : Bytes} {f : Field} (h : ValueL c w f) (hne : singles f ≠ []) :
    ∃ ws : List Bytes, w = withCommas ws ∧ ws.length = (singles f).length ∧
      ∀ p ∈ ws.zip (singles f), headerOf p.2 = headerOf f ∧ (Solid p.1 → ValueL c p.1 p.2) := by
  have key : ∀ {α : Type} {L : Bytes → α → Prop} {v : List α} (g : α → Field), Commas L w v →
      (∀ u a, L u a → headerOf (g a) = headerOf f ∧ (Solid u → ValueL c u (g a))) →
      ∃ ws : List Bytes, w = withCommas ws ∧ ws.length = (v.map g).length ∧
        ∀ p ∈ ws.zip (v.map g), headerOf p.2 = headerOf f ∧ (Solid p.1 → ValueL c p.1 p.2) := fun g a b => by
    obtain ⟨ws, -, e, hl, hp⟩ := commas_apart a
    exact ⟨ws, e, by rw [hl, List.length_map],
      zip_map_mem (P := fun u q => headerOf q = headerOf f ∧ (Solid u → ValueL c u q)) fun p hm => b _ _ (hp p hm)⟩
  unfold singles at hne ⊢
  split at hne
  · exact key _ h.1 fun u a hu => ⟨rfl, fun hs => ⟨.one hu, hs⟩⟩
  · exact key _ h.1 fun u a hu => ⟨rfl, fun hs => ⟨.one hu, hs⟩⟩
  · exact key _ h.1 fun u a hu => ⟨rfl, fun hs => ⟨.one hu, hs⟩⟩
  · exact key _ h.1 fun u a hu => ⟨rfl, fun hs => ⟨.one hu, hs⟩⟩
  · rcases h.1 with h | ⟨rfl, -⟩
    · exact key _ h fun u a hu => ⟨rfl, fun hs => ⟨.inl (.one hu), hs⟩⟩
    · exact absurd rfl hne
  · exact key _ h.1 fun u a hu => ⟨rfl, fun hs => ⟨.one hu, hs⟩⟩
  · exact absurd rfl hne

theorem messageIds_join {fixes : Bool} {w w' : Bytes} {v v' : List (Bytes × Bytes)} (h : MessageIds fixes w v)
    (h' : MessageIds fixes w' v') : MessageIds fixes (w ++ w') (v ++ v') := by
  obtain ⟨w₁, _, a, rfl, ha, s, _, as, rfl, hs, rfl, rfl⟩ := h
  obtain ⟨w₁', _, a', rfl, ha', s', _, as', rfl, hs', rfl, rfl⟩ := h'
  have := star_append hs (.cons ha' hs')
  have e : w₁ ++ (s ++ []) ++ (w₁' ++ (s' ++ [])) = w₁ ++ ((s ++ (w₁' ++ s')) ++ []) := by simp
  rw [e]
  exact ⟨w₁, _, a, rfl, ha, s ++ (w₁' ++ s'), [], _, rfl, this, rfl, rfl⟩

theorem ids_apart {w : Bytes} {v : List (Bytes × Bytes)} (h : IdsL c w v) :
    ∃ ws : List Bytes, w = ws.flatten ∧ ws.length = v.length ∧ ∀ p ∈ ws.zip v, IdsL c p.1 [p.2] := by
  induction h with
  | @one w v h => exact ⟨[w], by simp, rfl, by simpa using .one h⟩
  | @cons w v s vs h _ _ ih =>
    obtain ⟨ws, rfl, hl, hp⟩ := ih
    refine ⟨w :: ws, rfl, by simp [hl], ?_⟩
    simp only [List.zip_cons_cons, List.mem_cons]
    rintro p (rfl | hm)
    · exact .one h
    · exact hp p hm

theorem identifiers_apart {w : Bytes} {f : Field} (h : ValueL c w f) (hne : identifierSingles f ≠ []) :
    ∃ ws : List Bytes, w = ws.flatten ∧ ws.length = (identifierSingles f).length ∧
      ∀ p ∈ ws.zip (identifierSingles f), headerOf p.2 = headerOf f ∧ (Solid p.1 → ValueL c p.1 p.2) := by
  have key : ∀ {v : List (Bytes × Bytes)} (g : Bytes × Bytes → Field), IdsL c w v →
      (∀ u a, IdsL c u [a] → headerOf (g a) = headerOf f ∧ (Solid u → ValueL c u (g a))) →
      ∃ ws : List Bytes, w = ws.flatten ∧ ws.length = (v.map g).length ∧
        ∀ p ∈ ws.zip (v.map g), headerOf p.2 = headerOf f ∧ (Solid p.1 → ValueL c p.1 p.2) := fun g a b => by
    obtain ⟨ws, e, hl, hp⟩ := ids_apart a
    exact ⟨ws, e, by rw [hl, List.length_map],
      zip_map_mem (P := fun u q => headerOf q = headerOf f ∧ (Solid u → ValueL c u q)) fun p hm => b _ _ (hp p hm)⟩
  unfold identifierSingles at hne ⊢
  split at hne
  · exact key _ h.1 fun u a hu => ⟨rfl, fun hs => ⟨hu, hs⟩⟩
  · exact key _ h.1 fun u a hu => ⟨rfl, fun hs => ⟨hu, hs⟩⟩
  · exact absurd rfl hne

end EmailParser
