import Verif.Spec.Build
import Verif.Proofs.Build
import Verif.Props.Total
import Verif.Props.WhiteLines
/-
C87: what is returned does not depend on the build.  `Spec.SameSources`, `Spec.Aborted` and `Spec.withRoom` are in
Verif/Spec/Build.lean.
-/
namespace EmailParser
open Spec

variable {c c' : Cfg}

theorem or_of_not {p q : Prop} (h : ¬ p → q) : p ∨ q := (Classical.em p).imp id h

theorem eq_roomy (hs : SameSources c c') : c' = c.roomy c'.stack c'.overflowChecks c'.mapOrder c'.mapOrder_perm := by
  obtain ⟨h1, h2, h3⟩ := hs
  cases c; cases c'
  dsimp only at h1 h2 h3
  subst h1 h2 h3
  rfl

/-- Whatever two builds return through a third one is the same. -/
theorem same_of_roomy {α : Type} {f : Cfg → Outcome α}
    (hf : ∀ {c : Cfg} {n : Nat} {b : Bool} {o : List (Bytes × Segments) → List (Bytes × Segments)} {ho : ∀ l, (o l).Perm l},
      Roomier c n b o → (∃ k, f c = .abort k) ∨ f c = f (c.roomy n b o ho))
    (hs : SameSources c c') (h : ¬ Aborted (f c)) (h' : ¬ Aborted (f c')) : f c = f c' := by
  have h1 := (hf (c := c) (n := c.stack + c'.stack) (b := false) (o := id) (ho := List.Perm.refl) ⟨by omega, .inl rfl⟩).resolve_left h
  have h2 := (hf (c := c') (n := c.stack + c'.stack) (b := false) (o := id) (ho := List.Perm.refl) ⟨by omega, .inl rfl⟩).resolve_left h'
  rw [h1, h2, eq_roomy hs]
  rfl

theorem more_of_roomy {α : Type} {f : Cfg → Outcome α}
    (hf : ∀ {c : Cfg} {n : Nat} {b : Bool} {o : List (Bytes × Segments) → List (Bytes × Segments)} {ho : ∀ l, (o l).Perm l},
      Roomier c n b o → (∃ k, f c = .abort k) ∨ f c = f (c.roomy n b o ho))
    (hs : SameSources c c') (hn : c.stack ≤ c'.stack)
    (hb : c'.overflowChecks = false ∨ (c'.overflowChecks = c.overflowChecks ∧ c'.mapOrder = c.mapOrder))
    (h : ¬ Aborted (f c)) : f c' = f c := by
  rw [eq_roomy hs]
  exact ((hf ⟨hn, hb⟩).resolve_left h).symm

/-! ### C87: the result -/

/-- Every input has one result: a build that is not aborted returns it, and some builds do. -/
theorem C87_result (c : Cfg) (i : Bytes) : ∃ r : Outcome Email, ¬ Aborted r ∧
    (∀ n, i.count 40 ≤ n → Email.parse (withRoom c n) i = r) ∧
    ∀ c', SameSources c c' → Aborted (Email.parse c' i) ∨ Email.parse c' i = r := by
  have hr : ∀ n, i.count 40 ≤ n → ¬ Aborted (Email.parse (withRoom c n) i) := by
    rintro n hn ⟨k, h⟩
    rcases C01_email_parse_total (withRoom c n) i hn nofun with ⟨e, h'⟩ | ⟨e, h'⟩ <;> rw [h'] at h <;> cases h
  refine ⟨_, hr _ (Nat.le_refl _), fun n hn => ?_, fun c' hs => ?_⟩
  · exact same_of_roomy (f := fun c => Email.parse c i) (fun h => roomy_email h i) ⟨rfl, rfl, rfl⟩ (hr n hn) (hr _ (Nat.le_refl _))
  · refine or_of_not fun h => ?_
    refine same_of_roomy (f := fun c => Email.parse c i) (fun h => roomy_email h i) ?_ h (hr _ (Nat.le_refl _))
    exact ⟨hs.feat.symm, hs.textcode.symm, hs.toLowercase.symm⟩

/-- The same for the parts of an entity. -/
theorem C87_entity_result (c : Cfg) (hm : c.feat.mime = true) (raw : RawEntity) : ∃ r : Outcome Entity, ¬ Aborted r ∧
    (∀ n, raw.value.count 40 ≤ n → raw.parse (withRoom c n) = r) ∧
    ∀ c', SameSources c c' → Aborted (raw.parse c') ∨ raw.parse c' = r := by
  have hr : ∀ n, raw.value.count 40 ≤ n → ¬ Aborted (raw.parse (withRoom c n)) := by
    rintro n hn ⟨k, h⟩
    rcases C01_entity_parse_total (withRoom c n) hm raw hn nofun with ⟨e, h'⟩ | ⟨e, h'⟩ <;> rw [h'] at h <;> cases h
  refine ⟨_, hr _ (Nat.le_refl _), fun n hn => ?_, fun c' hs => ?_⟩
  · exact same_of_roomy (f := fun c => raw.parse c) (fun h => roomy_parse h raw) ⟨rfl, rfl, rfl⟩ (hr n hn) (hr _ (Nat.le_refl _))
  · refine or_of_not fun h => ?_
    refine same_of_roomy (f := fun c => raw.parse c) (fun h => roomy_parse h raw) ?_ h (hr _ (Nat.le_refl _))
    exact ⟨hs.feat.symm, hs.textcode.symm, hs.toLowercase.symm⟩

/-- Two builds, or two runs, that return something for a message return the same. -/
theorem C87_email (hs : SameSources c c') (i : Bytes) (h : ¬ Aborted (Email.parse c i)) (h' : ¬ Aborted (Email.parse c' i)) :
    Email.parse c i = Email.parse c' i :=
  same_of_roomy (f := fun c => Email.parse c i) (fun h => roomy_email h i) hs h h'

/-- The same for a part. -/
theorem C87_part (hs : SameSources c c') (i : Bytes) (h : ¬ Aborted (rawEntity c i)) (h' : ¬ Aborted (rawEntity c' i)) :
    rawEntity c i = rawEntity c' i :=
  same_of_roomy (f := fun c => rawEntity c i) (fun h => roomy_rawEntity h i) hs h h'

/-- The same for an entity. -/
theorem C87_entity (hs : SameSources c c') (raw : RawEntity) (h : ¬ Aborted (raw.parse c)) (h' : ¬ Aborted (raw.parse c')) :
    raw.parse c = raw.parse c' :=
  same_of_roomy (f := fun c => raw.parse c) (fun h => roomy_parse h raw) hs h h'

/-- What is returned is also returned with more room on the stack, and without overflow checks. -/
theorem C87_email_more (hs : SameSources c c') (i : Bytes) (hn : c.stack ≤ c'.stack)
    (hb : c'.overflowChecks = false ∨ (c'.overflowChecks = c.overflowChecks ∧ c'.mapOrder = c.mapOrder))
    (h : ¬ Aborted (Email.parse c i)) : Email.parse c' i = Email.parse c i :=
  more_of_roomy (f := fun c => Email.parse c i) (fun h => roomy_email h i) hs hn hb h

/-- The same for a part. -/
theorem C87_part_more (hs : SameSources c c') (i : Bytes) (hn : c.stack ≤ c'.stack)
    (hb : c'.overflowChecks = false ∨ (c'.overflowChecks = c.overflowChecks ∧ c'.mapOrder = c.mapOrder))
    (h : ¬ Aborted (rawEntity c i)) : rawEntity c' i = rawEntity c i :=
  more_of_roomy (f := fun c => rawEntity c i) (fun h => roomy_rawEntity h i) hs hn hb h

/-- The same for an entity. -/
theorem C87_entity_more (hs : SameSources c c') (raw : RawEntity) (hn : c.stack ≤ c'.stack)
    (hb : c'.overflowChecks = false ∨ (c'.overflowChecks = c.overflowChecks ∧ c'.mapOrder = c.mapOrder))
    (h : ¬ Aborted (raw.parse c)) : raw.parse c' = raw.parse c :=
  more_of_roomy (f := fun c => raw.parse c) (fun h => roomy_parse h raw) hs hn hb h

/-! ### What it is -/

/-- What is returned is determined by the header lines and the body, however many parentheses and asterisks there are. -/
theorem C87_parse (c : Cfg) (hc : c.feat.compiles) (i head tail : Bytes) (hs : Split i head tail)
    (hw : ¬ SomeWhite (MayBeWhite c) head) (n : Nat) (hn : c.stack ≤ n) (hp : head.count 40 ≤ n) :
    Aborted (Email.parse c i) ∨ Returned (withRoom c n) head tail (Email.parse c i) := by
  refine or_of_not fun h => ?_
  have := C87_email_more (c := c) (c' := withRoom c n) ⟨rfl, rfl, rfl⟩ i hn (.inl rfl) h
  exact (C86_parse (withRoom c n) hc i head tail hs hw ⟨hp, nofun⟩ _).mp this

/-- The same for a part. -/
theorem C87_part_parse (c : Cfg) (hm : c.feat.mime = true) (i head tail : Bytes) (hs : Split i head tail)
    (hw : ¬ SomeWhite PartMayBeWhite head) (n : Nat) (hn : c.stack ≤ n) (hp : head.count 40 ≤ n) :
    Aborted (rawEntity c i) ∨ ReturnedPart (withRoom c n) head tail (rawEntity c i) := by
  refine or_of_not fun h => ?_
  have := C87_part_more (c := c) (c' := withRoom c n) ⟨rfl, rfl, rfl⟩ i hn (.inl rfl) h
  exact (C86_part (withRoom c n) hm i head tail hs hw ⟨hp, nofun⟩ _).mp this

/-- The same for a multipart entity. -/
theorem C87_multipart (c : Cfg) (hm : c.feat.mime = true) (raw : RawEntity) (ht : raw.mimeType = .multipart) (n : Nat)
    (hn : c.stack ≤ n) (hp : ∀ b ps, raw.parameters (b! "boundary") = some b → MultipartText b raw.value ps → ∀ p ∈ ps,
      ∀ head tail, Split p head tail → ¬ SomeWhite PartMayBeWhite head ∧ head.count 40 ≤ n) :
    Aborted (raw.parse c) ∨ ReturnedMultipart (withRoom c n) raw (raw.parse c) := by
  refine or_of_not fun h => ?_
  have := C87_entity_more (c := c) (c' := withRoom c n) ⟨rfl, rfl, rfl⟩ raw hn (.inl rfl) h
  refine (C86_multipart (withRoom c n) hm raw ht (fun b ps hb h' p hp' head tail hs => ?_) _).mp this
  exact ⟨(hp b ps hb h' p hp' head tail hs).1, (hp b ps hb h' p hp' head tail hs).2, nofun⟩

/-! ### Builds do differ in whether they are aborted -/

/-- For every stack there is an input that needs one more frame. -/
theorem C87_stack_matters (c : Cfg) (hf : c.feat.from = true) : ∃ i, Aborted (Email.parse c i) ∧
    ¬ Aborted (Email.parse { c with stack := c.stack + 1 } i) := by
  refine ⟨b! "From:" ++ List.replicate (c.stack + 1) 40 ++ [], ⟨_, C02_nesting_not_limited c hf []⟩, ?_⟩
  rintro ⟨k, h⟩
  have h40 : (b! "From:" ++ List.replicate (c.stack + 1) 40 ++ []).count 40 = c.stack + 1 := by
    simp
  have h42 : (b! "From:" ++ List.replicate (c.stack + 1) 40 ++ []).count 42 = 0 := by
    simp [List.count_replicate]
  rcases C01_email_parse_total { c with stack := c.stack + 1 } _ (Nat.le_of_eq h40) (fun _ _ => by rw [h42]; decide) with
    ⟨e, h'⟩ | ⟨e, h'⟩ <;> rw [h'] at h <;> cases h

/-- With overflow checks some messages are not read that are read without. -/
theorem C87_checks_matter : ∃ i, Aborted (Email.parse (Cfg.concrete .full) i) ∧
    ¬ Aborted (Email.parse (Cfg.concrete .full false) i) := by
  refine ⟨overflowInput, ?_, ?_⟩
  · have h : isPanic (Email.parse (Cfg.concrete .full) overflowInput) = true := by decide +kernel
    cases hx : Email.parse (Cfg.concrete .full) overflowInput with
    | abort k => exact ⟨k, rfl⟩
    | ok e => rw [hx] at h; cases h
    | err e => rw [hx] at h; cases h
  · rintro ⟨k, h⟩
    rcases C01_email_parse_total (Cfg.concrete .full false) overflowInput (by decide +kernel) nofun with
      ⟨e, h'⟩ | ⟨e, h'⟩ <;> rw [h'] at h <;> cases h

/-! ### Examples -/

theorem notAborted_of_isOk {α : Type} {r : Outcome α} (h : isOk r = true) : ¬ Aborted r := by
  rintro ⟨k, rfl⟩
  cases h

/-- A debug build with room for four nested comments and a release build with room for a thousand. -/
example : Email.parse (Cfg.concrete .full true 4) totalExample = Email.parse (Cfg.concrete .full false 1000) totalExample :=
  (C87_email_more (c := Cfg.concrete .full true 4) (c' := Cfg.concrete .full false 1000) ⟨rfl, rfl, rfl⟩ totalExample
    (by decide) (.inl rfl) (notAborted_of_isOk (by decide +kernel))).symm

/-- The release build visits hash maps in the other order; the parameter has 256 segments, which the debug build cannot count. -/
example : outcomeValue ((Email.parse { Cfg.concrete .full false with mapOrder := List.reverse, mapOrder_perm := List.reverse_perm }
      overflowInput).bind fun e => .ok e.subject) =
    outcomeValue ((Email.parse (Cfg.concrete .full false) overflowInput).bind fun e => .ok e.subject) := by
  have h : ∀ {c : Cfg}, c.overflowChecks = false → overflowInput.count 40 ≤ c.stack → ¬ Aborted (Email.parse c overflowInput) := by
    rintro c h1 h2 ⟨k, h⟩
    rcases C01_email_parse_total c overflowInput h2 (by rw [h1]; nofun) with ⟨e, h'⟩ | ⟨e, h'⟩ <;> rw [h'] at h <;> cases h
  rw [C87_email (c := Cfg.concrete .full false)
    (c' := { Cfg.concrete .full false with mapOrder := List.reverse, mapOrder_perm := List.reverse_perm }) ⟨rfl, rfl, rfl⟩
    overflowInput (h rfl (by decide +kernel)) (h rfl (by decide +kernel))]

end EmailParser
