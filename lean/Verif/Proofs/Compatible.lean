import Verif.Proofs.ExactAddress
import Verif.Spec.Compatible
/-
Lemmas: what is in the grammar is in it with the feature `compatibility-fixes` too.
-/
namespace EmailParser
open Spec

variable {c : Cfg}

theorem gram_bind_mono {α β : Type} {G G' : Gram α} {F F' : α → Gram β} (hG : ∀ w v, G w v → G' w v)
    (hF : ∀ a w v, F a w v → F' a w v) {w : Bytes} {v : β} (h : (G >>= F) w v) : (G' >>= F') w v := by
  obtain ⟨w₁, w₂, a, e, h1, h2⟩ := h
  exact ⟨w₁, w₂, a, e, hG _ _ h1, hF _ _ _ h2⟩

theorem gram_star_mono {α : Type} {G G' : Gram α} (hG : ∀ w v, G w v → G' w v) {w : Bytes} {v : List α}
    (h : Gram.star G w v) : Gram.star G' w v := by
  induction h with
  | nil => exact .nil
  | cons h1 _ ih => exact .cons (hG _ _ h1) ih

theorem gram_or_mono {α : Type} {G G' H H' : Gram α} (hG : ∀ w v, G w v → G' w v) (hH : ∀ w v, H w v → H' w v)
    {w : Bytes} {v : α} (h : Gram.or G H w v) : Gram.or G' H' w v := h.imp (hG _ _) (hH _ _)

theorem dotPart_fixes {lax : Bool} {w v : Bytes} (h : DotPart lax w v) : DotPart true w v := by
  cases lax with
  | true => exact h
  | false => exact ⟨h.1, h.2.2⟩

theorem dotAtomText_fixes {lax : Bool} {w v : Bytes} (h : DotAtomText lax w v) : DotAtomText true w v := by
  unfold DotAtomText at h ⊢
  refine gram_bind_mono (fun _ _ h => h) (fun _ _ _ h => ?_) h
  refine gram_bind_mono (fun _ _ h => ?_) (fun _ _ _ h => h) h
  refine gram_star_mono (fun _ _ h => ?_) h
  refine gram_bind_mono (fun _ _ h => h) (fun _ _ _ h => ?_) h
  exact gram_bind_mono (fun _ _ h => dotPart_fixes h) (fun _ _ _ h => h) h

variable {K : Gram Unit} {lax : Bool} {w : Bytes}

theorem dotAtom_fixes {v : Bytes} (h : DotAtomOf K lax w v) : DotAtomOf K true w v := by
  unfold DotAtomOf at h ⊢
  refine gram_bind_mono (fun _ _ h => h) (fun _ _ _ h => ?_) h
  exact gram_bind_mono (fun _ _ h => dotAtomText_fixes h) (fun _ _ _ h => h) h

theorem localPart_fixes {v : Bytes} (h : LocalPartOf K lax w v) : LocalPartOf K true w v :=
  gram_or_mono (fun _ _ h => dotAtom_fixes h) (fun _ _ h => h) h

theorem domain_fixes {v : Bytes} (h : DomainOf K lax w v) : DomainOf K true w v :=
  gram_or_mono (fun _ _ h => dotAtom_fixes h) (fun _ _ h => h) h

theorem addrSpec_fixes {v : EmailAddress} (h : AddrSpecOf K lax w v) : AddrSpecOf K true w v := by
  unfold AddrSpecOf at h ⊢
  refine gram_bind_mono (fun _ _ h => localPart_fixes h) (fun _ _ _ h => ?_) h
  refine gram_bind_mono (fun _ _ h => h) (fun _ _ _ h => ?_) h
  exact gram_bind_mono (fun _ _ h => domain_fixes h) (fun _ _ _ h => h) h

theorem angleAddr_fixes {v : EmailAddress} (h : AngleAddrOf K lax w v) : AngleAddrOf K true w v := by
  unfold AngleAddrOf at h ⊢
  refine gram_bind_mono (fun _ _ h => h) (fun _ _ _ h => ?_) h
  refine gram_bind_mono (fun _ _ h => h) (fun _ _ _ h => ?_) h
  exact gram_bind_mono (fun _ _ h => addrSpec_fixes h) (fun _ _ _ h => h) h

theorem messageId_fixes {v : Bytes × Bytes} (h : MessageIdOf K lax w v) : MessageIdOf K true w v := by
  unfold MessageIdOf at h ⊢
  refine gram_bind_mono (fun _ _ h => h) (fun _ _ _ h => ?_) h
  refine gram_bind_mono (fun _ _ h => h) (fun _ _ _ h => ?_) h
  refine gram_bind_mono (fun _ _ h => dotAtomText_fixes h) (fun _ _ _ h => ?_) h
  refine gram_bind_mono (fun _ _ h => h) (fun _ _ _ h => ?_) h
  exact gram_bind_mono (fun _ _ h => gram_or_mono (fun _ _ h => dotAtomText_fixes h) (fun _ _ h => h) h)
    (fun _ _ _ h => h) h

theorem messageIds_fixes {v : List (Bytes × Bytes)} (h : MessageIds lax w v) : MessageIds true w v := by
  unfold MessageIds Gram.plus at h ⊢
  refine gram_bind_mono (fun _ _ h => messageId_fixes h) (fun _ _ _ h => ?_) h
  exact gram_bind_mono (fun _ _ h => gram_star_mono (fun _ _ h => messageId_fixes h) h) (fun _ _ _ h => h) h

theorem headerLine_mono {α : Type} {n : Bytes} {G G' : Gram α} (hG : ∀ w v, G w v → G' w v) {v : α}
    (h : HeaderLine n G w v) : HeaderLine n G' w v := by
  unfold HeaderLine at h ⊢
  refine gram_bind_mono (fun _ _ h => h) (fun _ _ _ h => ?_) h
  exact gram_bind_mono (fun _ _ h => hG _ _ h) (fun _ _ _ h => h) h

/-! ### Phrases and addresses without encoded words -/

theorem fixes_mime (hm : c.feat.mime = false) (h : (withFixes c).feat.mime = true) : False := by
  have h : c.feat.mime = true := h
  simp [hm] at h

theorem phrases_names (hm : c.feat.mime = false) {e : Bytes} {p q : Bool} {vs : List Bytes}
    (h : Phrases c e p w vs q) : Names (withFixes c) p w vs q := by
  induction h with
  | nil => exact .nil
  | atom hg hp hne hx ht hn _ _ ih =>
    refine .atom hg hp hne hx (fun h => (fixes_mime hm h).elim) ht (fun h b s' e => ?_) ih
    exact hn h b _ (by rw [e]; rfl)
  | quoted hg hp hq ht _ ih => exact .quoted hg hp hq ht ih
  | encoded h => exact absurd h (by simp [hm])

theorem phrases_fixes (hm : c.feat.mime = false) {e : Bytes} {p q : Bool} {vs : List Bytes} :
    Phrases (withFixes c) e p w vs q ↔ Phrases c e p w vs q := by
  constructor <;> intro h
  · induction h with
    | nil => exact .nil
    | atom hg hp hne hx ht hn _ _ ih =>
      exact .atom hg hp hne hx ht hn (fun h => absurd h (by simp [hm])) ih
    | quoted hg hp hq ht _ ih => exact .quoted hg hp hq ht ih
    | encoded h => exact (fixes_mime hm h).elim
  · induction h with
    | nil => exact .nil
    | atom hg hp hne hx ht hn _ _ ih =>
      exact .atom hg hp hne hx ht hn (fun h => (fixes_mime hm h).elim) ih
    | quoted hg hp hq ht _ ih => exact .quoted hg hp hq ht ih
    | encoded h => exact absurd h (by simp [hm])

theorem commasE_mono {α : Type} {L L' : Bytes → Bytes → α → Prop} {e : Bytes} {vs : List α}
    (hL : ∀ e w v, L e w v → L' e w v) (h : CommasE L e w vs) : CommasE L' e w vs := by
  induction h with
  | one h => exact .one (hL _ _ _ h)
  | cons h _ ih => exact .cons (hL _ _ _ h) ih

theorem commasE_commas {α : Type} {L : Bytes → Bytes → α → Prop} {L' : Bytes → α → Prop} {e : Bytes} {vs : List α}
    (hL : ∀ e w v, L e w v → L' w v) (h : CommasE L e w vs) : Commas L' w vs := by
  induction h with
  | one h => exact .one (hL _ _ _ h)
  | cons h _ ih => exact .cons (hL _ _ _ h) ih

theorem mailboxE_fixes (hm : c.feat.mime = false) {e : Bytes} {m : Mailbox} (h : MailboxE c e w m) :
    MailboxL (withFixes c) w m := by
  cases h with
  | nameAddr h =>
    cases h with
    | named hn hne ha hp => exact .named (phrases_names hm hn) hne (angleAddr_fixes ha) hp
    | angle ha => exact .angle (angleAddr_fixes ha)
  | addr h =>
    obtain ⟨l, s, lv, rfl, hl, at', d', ⟨⟩, rfl, rfl, d, e', dv, rfl, hd, rfl, rfl⟩ := h
    rw [List.append_nil]
    rcases hl with hl | hl
    · exact .dotAtom (dotAtom_fixes hl) (fun h => (fixes_mime hm h).elim) (domain_fixes hd)
    · exact .quoted hl (domain_fixes hd)

theorem addressE_fixes (hm : c.feat.mime = false) {e : Bytes} {a : Address} (h : AddressE c e w a) :
    AddressL (withFixes c) w a := by
  cases h with
  | mailbox h => exact .mailbox (mailboxE_fixes hm h)
  | group hn hne hw ht _ =>
    have hg : GroupName (withFixes c) _ _ := ⟨hne, ⟨_, phrases_names hm hn⟩, fun _ _ _ _ _ _ _ _ h => (fixes_mime hm h).elim⟩
    cases hw with
    | list h => exact .group hg (commasE_commas (fun _ _ _ h => mailboxE_fixes hm h) h) ht
    | none h => exact .emptyGroup hg h ht

theorem keywordsE_fixes (hm : c.feat.mime = false) {e : Bytes} {v : List (List Bytes)} :
    CommasE (KeywordE (withFixes c)) e w v ↔ CommasE (KeywordE c) e w v :=
  ⟨commasE_mono fun _ _ _ h => ⟨h.1, h.2.imp fun _ => (phrases_fixes hm).mp⟩,
    commasE_mono fun _ _ _ h => ⟨h.1, h.2.imp fun _ => (phrases_fixes hm).mpr⟩⟩

/-- A value that ends with the line is read with the feature too. -/
theorem phraseField_fixes (hm : c.feat.mime = false) {name r : Bytes} {f : Field}
    (hr : Recognized c.feat (name.map asciiLower)) (ho : headerOf f = some (name.map asciiLower))
    (hi' : Calm (withFixes c) (w ++ (CRLF ++ r))) (hs : Solid w) (ht : Stops Spec.wsp r)
    (h : PhraseValue c (CRLF ++ r) w f) :
    field (withFixes c) (name ++ b! ":" ++ (w ++ (CRLF ++ r))) = .ok (r, f) := by
  obtain ⟨r1, r2, r3, r4, r5, r6, r7⟩ := phraseHeaders_recognized hr
  have he := solid_end hs ht
  have hm' : ∀ {e w m}, MailboxE c e w m → MailboxL (withFixes c) w m := mailboxE_fixes hm
  have ha' : ∀ {e w m}, AddressE c e w m → AddressL (withFixes c) w m := addressE_fixes hm
  cases f with
  | «from» v =>
    have hn' := (Option.some.inj ho).symm
    exact (field_from (c := withFixes c) (r1 hn') hn').mpr
      (mailboxList_append (commasE_commas (fun _ _ _ => hm') h) he (crlf_stops (by decide)))
  | sender v =>
    have hn' := (Option.some.inj ho).symm
    exact (field_sender (c := withFixes c) (r2 hn') hn').mpr (mailbox_append (hm' h) he (crlf_stops (by decide)))
  | replyTo v =>
    have hn' := (Option.some.inj ho).symm
    exact (field_replyTo (c := withFixes c) (r3 hn') hn').mpr
      (addressList_append (commasE_commas (fun _ _ _ => ha') h) he (crlf_stops (by decide)))
  | to v =>
    have hn' := (Option.some.inj ho).symm
    exact (field_to (c := withFixes c) (r4 hn') hn').mpr
      (addressList_append (commasE_commas (fun _ _ _ => ha') h) he (crlf_stops (by decide)))
  | cc v =>
    have hn' := (Option.some.inj ho).symm
    exact (field_cc (c := withFixes c) (r5 hn') hn').mpr
      (addressList_append (commasE_commas (fun _ _ _ => ha') h) he (crlf_stops (by decide)))
  | bcc v =>
    have hn' := (Option.some.inj ho).symm
    refine (field_bcc (c := withFixes c) (r6 hn') hn').mpr ?_
    rcases h with h | h
    · unfold bccValue
      rw [addressList_append (commasE_commas (fun _ _ _ => ha') h) he (crlf_stops (by decide))]
    · exact bcc_value ⟨.inr h, hs⟩ ht
  | keywords v =>
    have hn' := (Option.some.inj ho).symm
    exact (field_keywords (c := withFixes c) (r7 hn') hn').mpr
      (keywordListE_append ((keywordsE_fixes hm).mpr h) hi' he (crlf_stops (by decide)))
  | _ => exact h.elim

/-! ### Members -/

theorem nodup_once {fs : List Field} (h : NoDuplicate fs) {f g : Field} (hf : f ∈ fs) (hg : g ∈ fs) {n : String}
    (h1 : onceName f = some n) (h2 : onceName g = some n) : f = g := by
  unfold NoDuplicate at h
  induction fs with
  | nil => cases hf
  | cons a fs ih =>
    rw [List.filterMap_cons] at h
    rcases List.mem_cons.mp hf with rfl | hf'
    · rcases List.mem_cons.mp hg with rfl | hg'
      · rfl
      · rw [h1] at h
        exact absurd (List.mem_filterMap.mpr ⟨g, hg', h2⟩) (List.nodup_cons.mp h).1
    · rcases List.mem_cons.mp hg with rfl | hg'
      · rw [h2] at h
        exact absurd (List.mem_filterMap.mpr ⟨f, hf', h1⟩) (List.nodup_cons.mp h).1
      · refine ih ?_ hf' hg'
        cases ha : onceName a with
        | none => rwa [ha] at h
        | some x => rw [ha] at h; exact (List.nodup_cons.mp h).2

theorem allGain_mem {fs fs' : List Field} (h : AllGain fs fs') {f : Field} (hf : f ∈ fs)
    (hu : ∀ n v, f ≠ .unknown n v) : f ∈ fs' := by
  induction h with
  | nil => cases hf
  | cons hg _ ih =>
    rcases List.mem_cons.mp hf with rfl | hf
    · rcases hg with rfl | ⟨n, v, e, -⟩
      · exact List.mem_cons_self
      · exact absurd e (hu n v)
    · exact List.mem_cons_of_mem _ (ih hf)

/-- A member of which there can be one is kept. -/
theorem allGain_once {α : Type} {g : Field → Option α} {n : String} {fs fs' : List Field} (h : AllGain fs fs')
    (hn : NoDuplicate fs') (hg : ∀ f v, g f = some v → onceName f = some n) {v : α}
    (hv : fs.findSome? g = some v) : fs'.findSome? g = some v := by
  obtain ⟨f, hf, hx⟩ := List.exists_of_findSome?_eq_some hv
  have hm := allGain_mem h hf fun a b e => by
    subst e
    cases hg _ _ hx
  cases hs : fs'.findSome? g with
  | none => rw [List.findSome?_eq_none_iff.mp hs f hm] at hx; cases hx
  | some v' =>
    obtain ⟨f', hf', hx'⟩ := List.exists_of_findSome?_eq_some hs
    rw [nodup_once hn hf' hm (hg _ _ hx') (hg _ _ hx), hx] at hx'
    exact hx'.symm

theorem allGain_find {α : Type} {g : Field → Option α} {fs fs' : List Field} (h : AllGain fs fs')
    (hg : ∀ f f', Gains f f' → g f' = g f) : fs'.findSome? g = fs.findSome? g := by
  induction h with
  | nil => rfl
  | cons h1 _ ih => rw [List.findSome?_cons, List.findSome?_cons, hg _ _ h1, ih]

theorem allGain_filterMap {α : Type} {g : Field → Option α} {fs fs' : List Field} (h : AllGain fs fs')
    (hg : ∀ f f', Gains f f' → g f' = g f) : fs'.filterMap g = fs.filterMap g := by
  induction h with
  | nil => rfl
  | cons h1 _ ih => rw [List.filterMap_cons, List.filterMap_cons, hg _ _ h1, ih]

theorem allGain_flatMap {α : Type} {g : Field → List α} {fs fs' : List Field} (h : AllGain fs fs')
    (hg : ∀ f f', Gains f f' → g f' = g f) : fs'.flatMap g = fs.flatMap g := by
  induction h with
  | nil => rfl
  | cons h1 _ ih => rw [List.flatMap_cons, List.flatMap_cons, hg _ _ h1, ih]

theorem gains_other {α : Type} {g : Field → α} {y : α} (hu : ∀ n v, g (.unknown n v) = y)
    (hg : ∀ f n, headerOf f = some n → n ∈ dottedHeaders → g f = y) (f f' : Field) (h : Gains f f') : g f' = g f := by
  rcases h with rfl | ⟨n, v, rfl, h1, h2⟩
  · rfl
  · rw [hu, hg f' _ h1 h2]

theorem allGain_unknown {fs fs' : List Field} (h : AllGain fs fs') :
    (fs'.filterMap unknownOf).Sublist (fs.filterMap unknownOf) := by
  induction h with
  | nil => exact List.Sublist.refl _
  | @cons f f' fs fs' h1 _ ih =>
    rcases h1 with rfl | ⟨n, v, rfl, h1, h2⟩
    · rw [List.filterMap_cons, List.filterMap_cons]
      cases unknownOf f' with
      | none => exact ih
      | some u => exact ih.cons_cons u
    · have hu : unknownOf f' = none := by cases f' <;> first | rfl | cases h1
      rw [List.filterMap_cons, List.filterMap_cons, hu]
      exact ih.cons (n, v)

theorem allGain_others {fs fs' : List Field} (h : AllGain fs fs') :
    (fs'.filterMap unknownOf).filter (fun u => decide (u.1.map asciiLower ∉ dottedHeaders)) =
      (fs.filterMap unknownOf).filter (fun u => decide (u.1.map asciiLower ∉ dottedHeaders)) := by
  induction h with
  | nil => rfl
  | @cons f f' fs fs' h1 _ ih =>
    rcases h1 with rfl | ⟨n, v, rfl, h1, h2⟩
    · rw [List.filterMap_cons, List.filterMap_cons]
      cases unknownOf f' with
      | none => exact ih
      | some u => rw [List.filter_cons, List.filter_cons, ih]
    · have hu : unknownOf f' = none := by cases f' <;> first | rfl | cases h1
      rw [List.filterMap_cons, List.filterMap_cons, hu]
      show _ = List.filter _ ((n, v) :: _)
      rw [List.filter_cons_of_neg (by simpa using h2)]
      exact ih

theorem allGain_same {fs fs' : List Field} (h : AllGain fs fs')
    (hu : ∀ u ∈ fs.filterMap unknownOf, u.1.map asciiLower ∉ dottedHeaders) : fs' = fs := by
  induction h with
  | nil => rfl
  | @cons f f' fs fs' h1 _ ih =>
    rw [ih fun u h => hu u (by
      obtain ⟨g, hg, e⟩ := List.mem_filterMap.mp h
      exact List.mem_filterMap.mpr ⟨g, List.mem_cons_of_mem _ hg, e⟩)]
    rcases h1 with rfl | ⟨n, v, rfl, -, h2⟩
    · rfl
    · exact absurd h2 (hu (n, v) (List.mem_filterMap.mpr ⟨_, List.mem_cons_self, rfl⟩))

end EmailParser
