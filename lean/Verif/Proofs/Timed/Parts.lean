import Verif.Proofs.Timed.Flat
/-
The cost of addresses, dates and parts of MIME fields is at most proportional to what remains of
the line.
-/
namespace EmailParser.Timed
open Spec (Folded)

variable {α β γ : Type} {c : Cfg} {i : Bytes}

namespace Flat

theorem bindUnit {F G : Nat} {x : TRes Unit} {f : Bytes × Unit → TRes β} (h : Flat F i x)
    (hf : ∀ r, Adv i r → Flat G r (f (r, ()))) : Flat (F + G) i (x >>= f) :=
  bind h fun r () _ ha => hf r ha

/-- The conditions on a constant text. -/
macro "flat_side" : tactic => `(tactic| first
  | assumption
  | decide +kernel)

theorem tokenChar_line : ∀ x, isTokenChar x = true → lineChar x = true := by decide +kernel

theorem tokenName_line : ∀ x, (isTokenChar x && x != 42) = true → lineChar x = true := fun x h =>
  tokenChar_line x (Bool.and_eq_true_iff.mp h).1

/-- The characters of a line. -/
macro "flat_line" : tactic => `(tactic| with_reducible first
  | exact wsp_line
  | exact atext_line
  | exact dtext_line
  | exact digit_line
  | exact tokenChar_line
  | exact tokenName_line)

/-- The parsers that are known to be flat. -/
syntax "flat_leaf" : tactic
macro_rules | `(tactic| flat_leaf) => `(tactic| with_reducible exact Flat.ok)
macro_rules | `(tactic| flat_leaf) => `(tactic| with_reducible exact Flat.err)
macro_rules | `(tactic| flat_leaf) => `(tactic| with_reducible exact Flat.abort)
macro_rules | `(tactic| flat_leaf) => `(tactic| with_reducible exact Flat.matchNil)
macro_rules | `(tactic| flat_leaf) => `(tactic| ((with_reducible apply Flat.tag); decide +kernel))
macro_rules | `(tactic| flat_leaf) => `(tactic| ((with_reducible apply Flat.takeWhile); flat_line))
macro_rules | `(tactic| flat_leaf) => `(tactic| ((with_reducible apply Flat.takeWhile1); flat_line))
macro_rules | `(tactic| flat_leaf) => `(tactic| ((with_reducible apply tagNoCase_flat) <;> flat_side))
macro_rules | `(tactic| flat_leaf) => `(tactic| with_reducible exact Flat.fws)
macro_rules | `(tactic| flat_leaf) => `(tactic| with_reducible exact Flat.fwsOrEmpty)
macro_rules | `(tactic| flat_leaf) => `(tactic| with_reducible exact Flat.comment)
macro_rules | `(tactic| flat_leaf) => `(tactic| with_reducible exact Flat.cfws)
macro_rules | `(tactic| flat_leaf) => `(tactic| with_reducible exact Flat.quotedString)
macro_rules | `(tactic| flat_leaf) => `(tactic| with_reducible exact Flat.word)
macro_rules | `(tactic| flat_leaf) => `(tactic| with_reducible exact Flat.phrase)
macro_rules | `(tactic| flat_leaf) => `(tactic| with_reducible exact Flat.unstructured)
macro_rules | `(tactic| flat_leaf) => `(tactic| with_reducible exact Flat.mimeUnstructured)

/-- One step of the evaluation of a parser. -/
macro "flat_step" : tactic => `(tactic| first
  | flat_leaf
  | (with_reducible apply Flat.skip; intro _ _; try dsimp only)
  | (with_reducible apply Flat.lift; intro _ _; try dsimp only)
  | (with_reducible apply Flat.bindUnit <;> (try intro _ _) <;> try dsimp only)
  | (with_reducible apply Flat.bind <;> (try intro _ _ _ _) <;> try dsimp only)
  | (with_reducible apply Flat.matchCons <;> try dsimp only)
  | (with_reducible apply Flat.optional <;> try dsimp only)
  | (with_reducible apply Flat.mapErr)
  | (with_reducible apply Flat.ite <;> (try intro _) <;> try dsimp only))

/-- Evaluation of a parser; the constant is then compared. -/
macro "flat" : tactic => `(tactic| (apply Flat.mono; (repeat' flat_step); decide))

/-! ### Addresses -/

theorem dotAtomTextLoop {n : Nat} : Flat 6 i (Timed.dotAtomTextLoop c n i) := dotAtomTextLoop_within n i
macro_rules | `(tactic| flat_leaf) => `(tactic| with_reducible exact Flat.dotAtomTextLoop)

theorem domainLiteralLoop {n : Nat} : Flat 20 i (Timed.domainLiteralLoop n i) := domainLiteralLoop_within n i
macro_rules | `(tactic| flat_leaf) => `(tactic| with_reducible exact Flat.domainLiteralLoop)

theorem dotAtomText : Flat 8 i (Timed.dotAtomText c i) := by
  unfold Timed.dotAtomText
  flat
macro_rules | `(tactic| flat_leaf) => `(tactic| with_reducible exact Flat.dotAtomText)

theorem dotAtom : Flat 128 i (Timed.dotAtom c i) := by
  unfold Timed.dotAtom
  flat
macro_rules | `(tactic| flat_leaf) => `(tactic| with_reducible exact Flat.dotAtom)

theorem noFoldLitteral : Flat 6 i (Timed.noFoldLitteral i) := by
  unfold Timed.noFoldLitteral
  flat
macro_rules | `(tactic| flat_leaf) => `(tactic| with_reducible exact Flat.noFoldLitteral)

theorem messageId : Flat 148 i (Timed.messageId c i) := by
  unfold Timed.messageId
  flat
macro_rules | `(tactic| flat_leaf) => `(tactic| with_reducible exact Flat.messageId)

theorem domainLiteral : Flat 151 i (Timed.domainLiteral c i) := by
  unfold Timed.domainLiteral
  flat
macro_rules | `(tactic| flat_leaf) => `(tactic| with_reducible exact Flat.domainLiteral)

theorem localPart : Flat 248 i (Timed.localPart c i) := by
  unfold Timed.localPart
  flat
macro_rules | `(tactic| flat_leaf) => `(tactic| with_reducible exact Flat.localPart)

theorem domain : Flat 279 i (Timed.domain c i) := by
  unfold Timed.domain
  flat
macro_rules | `(tactic| flat_leaf) => `(tactic| with_reducible exact Flat.domain)

theorem addrSpec : Flat 529 i (Timed.addrSpec c i) := by
  unfold Timed.addrSpec
  flat
macro_rules | `(tactic| flat_leaf) => `(tactic| with_reducible exact Flat.addrSpec)

theorem angleAddr : Flat 653 i (Timed.angleAddr c i) := by
  unfold Timed.angleAddr
  flat
macro_rules | `(tactic| flat_leaf) => `(tactic| with_reducible exact Flat.angleAddr)

theorem nameAddr : Flat 1453 i (Timed.nameAddr c i) := by
  unfold Timed.nameAddr
  flat
macro_rules | `(tactic| flat_leaf) => `(tactic| with_reducible exact Flat.nameAddr)

theorem mailbox : Flat 1982 i (Timed.mailbox c i) := by
  unfold Timed.mailbox
  flat
macro_rules | `(tactic| flat_leaf) => `(tactic| with_reducible exact Flat.mailbox)

/-! ### Dates -/

theorem digit : Flat 1 i (Timed.digit i) := digit_flat i
macro_rules | `(tactic| flat_leaf) => `(tactic| with_reducible exact Flat.digit)

theorem twoDigits : Flat 2 i (Timed.twoDigits i) := by
  unfold Timed.twoDigits
  flat
macro_rules | `(tactic| flat_leaf) => `(tactic| with_reducible exact Flat.twoDigits)

theorem dayName : Flat 3 i (Timed.dayName i) := by
  refine Flat.one (P := Any) (dayName_out i) (dayName_parses (A := .none)) ?_ ?_
  · intro w d h
    cases d <;> exact ens_litNoCase (P := Any) (by decide +kernel) trivial w () h
  · unfold Timed.dayName
    rw [tick_cost]
    split
    · split <;> exact Nat.le_refl _
    · exact Nat.le_refl _
macro_rules | `(tactic| flat_leaf) => `(tactic| with_reducible exact Flat.dayName)

theorem month : Flat 3 i (Timed.month i) := by
  refine Flat.one (P := Any) (month_out i) (month_parses (A := .none)) ens_monthG ?_
  unfold Timed.month
  rw [tick_cost]
  split
  · split <;> exact Nat.le_refl _
  · exact Nat.le_refl _
macro_rules | `(tactic| flat_leaf) => `(tactic| with_reducible exact Flat.month)

theorem dayOfWeek : Flat 12 i (Timed.dayOfWeek i) := by
  unfold Timed.dayOfWeek
  flat
macro_rules | `(tactic| flat_leaf) => `(tactic| with_reducible exact Flat.dayOfWeek)

theorem year : Flat 16 i (Timed.year i) := by
  unfold Timed.year
  refine bind (F := 7) (G := 9) fws fun r _ _ _ => bind (F := 2) (G := 7) (mapErr (takeWhile1 digit_line)) fun r y _ _ =>
    ite (F := 0) (G := 7) (fun _ => err) fun _ => ?_
  dsimp only
  cases parseUnsigned (2 ^ 64) y with
  | none => exact mono err (by decide)
  | some n => exact ite (F := 0) (G := 7) (fun _ => err) fun _ => by flat
macro_rules | `(tactic| flat_leaf) => `(tactic| with_reducible exact Flat.year)

theorem secondDigit {d : Nat} : Flat 1 i (Timed.secondDigit d i) := by
  refine on (G := 0) (H := 0) digit (fun _ _ _ ha => rebase ha ?_) (fun _ _ => ok) (fun _ _ => abort)
  dsimp only
  flat
macro_rules | `(tactic| flat_leaf) => `(tactic| with_reducible exact Flat.secondDigit)

theorem day : Flat 16 i (Timed.day i) := by
  unfold Timed.day
  flat
macro_rules | `(tactic| flat_leaf) => `(tactic| with_reducible exact Flat.day)

theorem seconds {h m : Nat} (hs : startsWith i (b! ":") = true) : Flat 3 i (do
    Timed.tick 1
    let newInput ← Timed.lift (sliceFrom i 1)
    Timed.on (Timed.twoDigits newInput) fun
    | .ok (newInput, second) =>
      if second > 60 then .err (.unknown "There is only 60 seconds in a minute")
      else .ok (newInput, { hour := h, minute := m, second })
    | .err _ => .ok (i, { hour := h, minute := m, second := 0 })
    | .abort k => .abort k : TRes Time) := by
  refine tick (n := 1) (F := 2) ?_
  obtain ⟨t, rfl⟩ := startsWith_single hs
  refine lift fun t' ht => ?_
  obtain ⟨_, ha, -⟩ := Adv.of_drop (by decide) ht
  exact on (F := 2) (G := 0) (H := 0) (rebase ha twoDigits)
    (fun _ _ _ ha => ite (F := 0) (G := 0) (fun _ => err) fun _ => ok' ha) (fun _ _ => ok) (fun _ _ => abort)

theorem timeOfDay : Flat 9 i (Timed.timeOfDay i) := by
  unfold Timed.timeOfDay
  apply Flat.mono
  repeat' first
    | (rename startsWith _ _ = true => hs; exact seconds hs)
    | flat_step
  decide
macro_rules | `(tactic| flat_leaf) => `(tactic| with_reducible exact Flat.timeOfDay)

theorem zoneSign : Flat 1 i (Timed.zoneSign i) := by
  refine tick (F := 0) ?_
  cases i with
  | nil => exact err
  | cons b t =>
    dsimp only
    split
    · rename_i h
      exact ok' (adv_cons (by rw [beq_iff_eq.mp h]; decide))
    · split
      · rename_i h
        exact ok' (adv_cons (by rw [beq_iff_eq.mp h]; decide))
      · exact err
macro_rules | `(tactic| flat_leaf) => `(tactic| with_reducible exact Flat.zoneSign)

theorem zone : Flat 12 i (Timed.zone i) := by
  unfold Timed.zone
  flat
macro_rules | `(tactic| flat_leaf) => `(tactic| with_reducible exact Flat.zone)

theorem time : Flat 21 i (Timed.time i) := by
  unfold Timed.time
  flat
macro_rules | `(tactic| flat_leaf) => `(tactic| with_reducible exact Flat.time)

theorem date : Flat 35 i (Timed.date i) := by
  unfold Timed.date
  flat
macro_rules | `(tactic| flat_leaf) => `(tactic| with_reducible exact Flat.date)

theorem dateTime : Flat 128 i (Timed.dateTime c i) := by
  unfold Timed.dateTime
  flat
macro_rules | `(tactic| flat_leaf) => `(tactic| with_reducible exact Flat.dateTime)

/-! ### MIME -/

theorem ignoreInlineCfws : Flat 64 i (Timed.ignoreInlineCfws c i) := by
  unfold Timed.ignoreInlineCfws triplet
  flat
macro_rules | `(tactic| flat_leaf) => `(tactic| with_reducible exact Flat.ignoreInlineCfws)

theorem token : Flat 2 i (Timed.token i) := by
  unfold Timed.token
  flat
macro_rules | `(tactic| flat_leaf) => `(tactic| with_reducible exact Flat.token)

theorem u8NumberLoop {n m : Nat} : Flat 2 i (Timed.u8NumberLoop n i m) := u8NumberLoop_within n i m
macro_rules | `(tactic| flat_leaf) => `(tactic| with_reducible exact Flat.u8NumberLoop)

theorem u8Number : Flat 3 i (Timed.u8Number i) := by
  unfold Timed.u8Number
  flat
macro_rules | `(tactic| flat_leaf) => `(tactic| with_reducible exact Flat.u8Number)

theorem mimeVersionValue : Flat 132 i (Timed.mimeVersionValue c i) := by
  unfold Timed.mimeVersionValue
  flat
macro_rules | `(tactic| flat_leaf) => `(tactic| with_reducible exact Flat.mimeVersionValue)

theorem encodedMark : Flat 1 i (Timed.encodedMark i) := by
  refine tick (F := 0) (ite (F := 0) (G := 0) (fun h => ?_) fun _ => ok)
  cases i with
  | nil => simp at h
  | cons b t =>
    simp at h
    subst h
    refine lift fun t' ht => ?_
    obtain ⟨_, ha, -⟩ := Adv.of_drop (by decide) ht
    exact ok' ha
macro_rules | `(tactic| flat_leaf) => `(tactic| with_reducible exact Flat.encodedMark)

theorem extendedName : Flat 7 i (Timed.extendedName i) := by
  unfold Timed.extendedName pair
  flat
macro_rules | `(tactic| flat_leaf) => `(tactic| with_reducible exact Flat.extendedName)

theorem parameterValue : Flat 122 i (Timed.parameterValue c i) := by
  unfold Timed.parameterValue
  flat
macro_rules | `(tactic| flat_leaf) => `(tactic| with_reducible exact Flat.parameterValue)

theorem parameter : Flat 255 i (Timed.parameter c i) := by
  unfold Timed.parameter
  flat
macro_rules | `(tactic| flat_leaf) => `(tactic| with_reducible exact Flat.parameter)

theorem keyword {e e2 : Bytes} {m : String} {v : α} (h : e2 = e.map swapCase)
    (he : ∀ x ∈ e, Spec.vchar x = true) : Flat (e.length + 1) i (Timed.keyword e e2 m v i) := by
  unfold Timed.keyword
  apply Flat.mono
  repeat' flat_step
  simp
macro_rules | `(tactic| flat_leaf) => `(tactic| ((with_reducible apply Flat.keyword) <;> flat_side))

theorem otherToken {mk : Bytes → α} : Flat 2 i (Timed.otherToken mk i) := by
  unfold Timed.otherToken
  flat
macro_rules | `(tactic| flat_leaf) => `(tactic| with_reducible exact Flat.otherToken)

theorem mimeType : Flat 100 i (Timed.mimeType i) := by
  unfold Timed.mimeType
  flat
macro_rules | `(tactic| flat_leaf) => `(tactic| with_reducible exact Flat.mimeType)

theorem dispositionType : Flat 100 i (Timed.dispositionType i) := by
  unfold Timed.dispositionType
  flat
macro_rules | `(tactic| flat_leaf) => `(tactic| with_reducible exact Flat.dispositionType)

theorem transferEncoding : Flat 100 i (Timed.transferEncoding i) := by
  unfold Timed.transferEncoding
  flat
macro_rules | `(tactic| flat_leaf) => `(tactic| with_reducible exact Flat.transferEncoding)

theorem transferEncodingValue : Flat 224 i (Timed.transferEncodingValue c i) := by
  unfold Timed.transferEncodingValue
  flat
macro_rules | `(tactic| flat_leaf) => `(tactic| with_reducible exact Flat.transferEncodingValue)

theorem filenameParameter : Flat 255 i (Timed.filenameParameter c i) := by
  unfold Timed.filenameParameter
  flat
macro_rules | `(tactic| flat_leaf) => `(tactic| with_reducible exact Flat.filenameParameter)

theorem dateParameter {e e2 : Bytes} (h : e2 = e.map swapCase) (he : ∀ x ∈ e, Spec.vchar x = true) :
    Flat (256 + e.length) i (Timed.dateParameter c i e e2) := by
  unfold Timed.dateParameter
  apply Flat.mono
  repeat' flat_step
  simp; omega
macro_rules | `(tactic| flat_leaf) => `(tactic| ((with_reducible apply Flat.dateParameter) <;> flat_side))

theorem dispositionItem : Flat 1400 i (Timed.dispositionItem c i) := by
  unfold Timed.dispositionItem
  flat
macro_rules | `(tactic| flat_leaf) => `(tactic| with_reducible exact Flat.dispositionItem)

/-! ### Fields -/

theorem textValue : Flat 400 i (Timed.textValue c i) := by
  unfold Timed.textValue
  flat
macro_rules | `(tactic| flat_leaf) => `(tactic| with_reducible exact Flat.textValue)

theorem unknownValue : Flat 400 i (Timed.unknownValue c i) := by
  unfold Timed.unknownValue
  flat
macro_rules | `(tactic| flat_leaf) => `(tactic| with_reducible exact Flat.unknownValue)

theorem emptyPath : Flat 184 i (Timed.emptyPath c i) := by
  unfold Timed.emptyPath
  flat
macro_rules | `(tactic| flat_leaf) => `(tactic| with_reducible exact Flat.emptyPath)

theorem returnPathValue : Flat 837 i (Timed.returnPathValue c i) := by
  unfold Timed.returnPathValue
  flat
macro_rules | `(tactic| flat_leaf) => `(tactic| with_reducible exact Flat.returnPathValue)

theorem receivedToken : Flat 1980 i (Timed.receivedToken c i) :=
  mono (on word
    (fun _ _ _ ha => on domain (fun _ _ _ ha' => ite (fun _ => ok' ha') fun _ => ok' ha) (fun _ _ => ok' ha)
      (fun _ _ => abort))
    (fun _ _ => on angleAddr (fun _ _ _ ha => ok' ha)
      (fun _ _ => on addrSpec (fun _ _ _ ha => ok' ha)
        (fun _ _ => on domain (fun _ _ _ ha => ok' ha) (fun _ _ => err) (fun _ _ => abort))
        (fun _ _ => abort))
      (fun _ _ => abort))
    (fun _ _ => abort)) (by decide)
macro_rules | `(tactic| flat_leaf) => `(tactic| with_reducible exact Flat.receivedToken)

end Flat

end EmailParser.Timed
