import Verif.Props.Body
import Verif.Props.ExactMessage
import Verif.Props.Entity
import Verif.Proofs.FeatureEmail
import Verif.Spec.ExactAll
/-
Helper lemmas for C83: folded lines without white lines are header lines; the first empty line.
-/
namespace EmailParser
open Spec

/-! ### Folded text without white lines -/

theorem folded_drop {p t : Bytes} (hp : ∀ b ∈ p, b ≠ 13) (h : Folded (p ++ t)) : Folded t := by
  induction p with
  | nil => exact h
  | cons b p ih =>
    rw [List.cons_append] at h
    generalize e : p ++ t = q at h
    cases h with
    | char _ h => exact ih (fun b hb => hp b (.tail _ hb)) (e ▸ h)
    | fold => exact absurd rfl (hp 13 (by simp))

theorem wsp_split (w : Bytes) : ∃ s u, w = s ++ u ∧ (∀ b ∈ s, wsp b = true) ∧ NotBefore wsp u := by
  induction w with
  | nil => exact ⟨[], [], rfl, by simp, by rintro _ _ ⟨⟩⟩
  | cons b w ih =>
    cases hb : wsp b with
    | true =>
      obtain ⟨s, u, rfl, h1, h2⟩ := ih
      exact ⟨b :: s, u, rfl, List.forall_mem_cons.2 ⟨hb, h1⟩, h2⟩
    | false =>
      refine ⟨[], b :: w, rfl, by simp, ?_⟩
      rintro x s e
      cases e
      exact hb

theorem wsp_not_cr : ∀ b : UInt8, wsp b = true → b ≠ 13 := by decide +kernel

theorem folding_of_folded : ∀ (n : Nat) (w : Bytes), w.length < n → Folded w → NoWhiteLine (w ++ CRLF) → ∃ x, Folding x w
  | 0, _, h, _, _ => by omega
  | n + 1, w, hn, h, hw => by
    obtain ⟨s, u, rfl, hs, hu⟩ := wsp_split w
    have hu' := folded_drop (fun b hb => wsp_not_cr b (hs b hb)) h
    clear h
    have vchar_not : ∀ {b : UInt8} {x : Bytes}, vchar b = true → NotBefore wsp (b :: x) := by
      rintro b x hb y t e
      cases e
      exact vchar_noWsp b hb
    have step : ∀ {b u'}, s ++ u = s ++ b :: u' → vchar b = true → Folded u' → ∃ x, Folding x (s ++ u) := by
      intro b u' e hb hu'
      rw [e] at hn hw ⊢
      obtain ⟨x, hx⟩ := folding_of_folded n u' (by simp at hn; omega) hu' (hw.infix ⟨s ++ [b], [], by simp⟩)
      exact ⟨_, .space hs (vchar_not hb) (.char hb hx)⟩
    cases hu' with
    | nil => exact ⟨s ++ [], .space hs (by rintro _ _ ⟨⟩) .nil⟩
    | @char b u' hb hu' =>
      rcases hb with hb | hb
      · exact step rfl hb hu'
      · rw [hu b u' rfl] at hb
        cases hb
    | @fold b u' hb hu' =>
      obtain ⟨s', v, rfl, hs', hv⟩ := wsp_split u'
      have hv' := folded_drop (fun b hb => wsp_not_cr b (hs' b hb)) hu'
      have hws : ∀ x ∈ b :: s', wsp x = true := List.forall_mem_cons.2 ⟨hb, hs'⟩
      cases hv' with
      | nil => exact absurd hws (hw s (b :: s') [] (by simp [CRLF]))
      | @char d v' hd hv' =>
        have hd : vchar d = true := hd.resolve_right fun h => by
          rw [hv d v' rfl] at h
          cases h
        obtain ⟨x, hx⟩ := folding_of_folded n v' (by simp at hn; omega) hv'
          (hw.infix ⟨s ++ 13 :: 10 :: b :: s' ++ [d], [], by simp⟩)
        refine ⟨s ++ (b :: s') ++ d :: x, ?_⟩
        have := Folding.fold (s := s) (s' := b :: s') (x := d :: x) hs hws (by simp) (by simp) (vchar_not hd) (.char hd hx)
        simpa [CRLF] using this
      | @fold d v' hd hv' => exact absurd hws (hw s (b :: s') (d :: v' ++ CRLF) (by simp))

/-- Lines with a name, without white lines, are header lines. -/
theorem madeOf_lines {w : Bytes} (h : HeaderLines w) (hw : ¬ WhiteLine w) : ∃ ls, MadeOf w ls := by
  obtain ⟨ls, rfl, h⟩ := h
  refine ⟨_, rfl, fun l hl => ?_⟩
  obtain ⟨l, hl', rfl⟩ := List.mem_map.1 hl
  obtain ⟨hf, name, t, rfl, hne, hn⟩ := h l hl'
  have hno : NoWhiteLine (t ++ CRLF) := by
    have hi := List.infix_of_mem_flatten hl
    have h' : NoWhiteLine ((ls.map (· ++ [13, 10])).flatten) := by
      intro y ws z e hws
      exact hw ⟨y, ws, z, by rw [e]; simp [CRLF], hws⟩
    exact (h'.infix hi).infix ⟨name ++ [58], [], by simp [CRLF]⟩
  have hft : ∀ b : UInt8, ftext b = true → b ≠ 13 := by decide +kernel
  have ht : Folded t := by
    refine folded_drop (p := name ++ [58]) ?_ (by simpa using hf)
    intro b hb
    rcases List.mem_append.1 hb with hb | hb
    · exact hft b (hn b hb)
    · rw [List.mem_singleton.1 hb]
      decide
  obtain ⟨x, hx⟩ := folding_of_folded _ t (Nat.lt_succ_self _) ht hno
  exact ⟨name, x, t, by simp [CRLF], hne, hn, hx⟩

/-! ### The first empty line -/

theorem split_lines {w t : Bytes} (h : HeaderLines w) (ht : Ended t) : Split (w ++ t) w t := by
  obtain ⟨h1, h2, h3⟩ := headerLines_first h
  have hp : ∀ t, w ≠ [] → ¬ CRLF <+: w ++ t := by
    intro t hw hp
    rcases h1 with rfl | ⟨p, rfl⟩
    · exact hw rfl
    · refine h2 (List.prefix_of_prefix_length_le hp (List.prefix_append _ _) ?_)
      simp [CRLF]
  cases ht with
  | nil =>
    rw [List.append_nil]
    refine .none h2 fun ⟨k, hk⟩ => ?_
    have := h3 [] k (by rw [List.append_nil]; exact hk)
    have hl := hk.length_le
    simp [CRLF] at hl
    omega
  | crlf b =>
    rcases h1 with rfl | ⟨p, rfl⟩
    · exact .first rfl
    · refine .later (hp _ (by simp [CRLF])) ⟨by simp [CRLF], fun k hk hk' => ?_⟩
      have := h3 _ k hk'
      simp [CRLF] at this
      omega

theorem split_ended {i head tail : Bytes} (h : Split i head tail) :
    i = head ++ tail ∧ Ended tail ∧ (tail = [] ∨ head = [] ∨ ∃ p, head = p ++ [13, 10]) := by
  cases h with
  | none => exact ⟨by simp, .nil, .inl rfl⟩
  | first h => exact ⟨h, .crlf _, .inr (.inl rfl)⟩
  | later _ h => exact ⟨by rw [h.1]; simp, .crlf _, .inr (.inr ⟨_, rfl⟩)⟩

end EmailParser
