import Verif.Spec.Cow
/-
C49 and C50: concatenation of strings without copies, and conversion to owned strings.
-/
namespace EmailParser
open Spec

theorem read_append (m : Memory) (addr len₁ len₂ : Nat) :
    m.read addr (len₁ + len₂) = m.read addr len₁ ++ m.read (addr + len₁) len₂ := by
  simp [Memory.read, List.range_add, Nat.add_assoc]

theorem read_zero (m : Memory) (addr : Nat) : m.read addr 0 = [] := rfl

/-! ### C49 -/

/-- Concatenation has the contents of both strings, wherever they are. -/
theorem C49_content (m : Memory) (s₁ s₂ : CowStr) :
    (addString m s₁ s₂).content m = s₁.content m ++ s₂.content m := by
  cases s₁ with
  | owned x => rfl
  | borrowed a₁ l₁ =>
    cases s₂ with
    | owned y => rfl
    | borrowed a₂ l₂ =>
      unfold addString
      dsimp only
      split
      · next h => subst h; simp [CowStr.content, read_zero]
      · split
        · next h => subst h; simp [CowStr.content, read_zero]
        · split
          · next h => subst h; simp [CowStr.content, read_append]
          · rfl

/-- The two functions for concatenation agree. -/
theorem C49_add_str (m : Memory) (s : CowStr) (addr len : Nat) :
    addStr m s addr len = addString m s (.borrowed addr len) := by
  cases s <;> rfl

/-- If both strings point into the same buffer, then so does the result: the slice made with `from_raw_parts` is
in bounds. -/
theorem C49_in_bounds (m : Memory) (lo hi : Nat) (s₁ s₂ : CowStr) (h₁ : Within lo hi s₁) (h₂ : Within lo hi s₂) :
    Within lo hi (addString m s₁ s₂) := by
  unfold addString
  repeat' split
  all_goals simp_all [Within]
  all_goals omega

/-- Concatenates consecutive slices of the given lengths to a string; the first slice begins at `pos`. -/
def addSlices (m : Memory) (s : CowStr) (pos : Nat) : List Nat → CowStr
  | [] => s
  | n :: lens => addSlices m (addString m s (.borrowed pos n)) (pos + n) lens

theorem addSlices_next (m : Memory) : ∀ (lens : List Nat) (addr len : Nat),
    addSlices m (.borrowed addr len) (addr + len) lens = .borrowed addr (len + lens.sum)
  | [], _, _ => rfl
  | n :: lens, addr, len => by
    have h : addString m (.borrowed addr len) (.borrowed (addr + len) n) = .borrowed addr (len + n) := by
      unfold addString
      dsimp only
      split
      · simp_all
      · split
        · simp_all
        · simp
    rw [addSlices, h, Nat.add_assoc, addSlices_next m lens addr (len + n)]
    simp [Nat.add_assoc]

/-- Consecutive slices of a buffer are put together without copying: beginning with the empty string, the result
is the one slice that consists of all of them. -/
theorem C49_no_copy (m : Memory) (e pos : Nat) (lens : List Nat) (h : 0 < lens.sum) :
    addSlices m (emptyString e) pos lens = .borrowed pos lens.sum := by
  induction lens with
  | nil => simp at h
  | cons n lens ih =>
    rw [addSlices]
    by_cases hn : n = 0
    · subst hn
      have h0 : addString m (emptyString e) (.borrowed pos 0) = emptyString e := rfl
      rw [h0, Nat.add_zero, ih (by simpa using h)]
      simp
    · have h0 : addString m (emptyString e) (.borrowed pos n) = .borrowed pos n := by simp [addString, emptyString, hn]
      rw [h0, addSlices_next]
      simp

/-- Exactly the strings that are owned or not consecutive are copied. -/
theorem C49_copied_iff (m : Memory) (s₁ s₂ : CowStr) :
    Owned (addString m s₁ s₂) ↔ Owned s₁ ∨ Owned s₂ ∨
      ∃ a₁ l₁ a₂ l₂, s₁ = .borrowed a₁ l₁ ∧ s₂ = .borrowed a₂ l₂ ∧ 0 < l₁ ∧ 0 < l₂ ∧ a₁ + l₁ ≠ a₂ := by
  cases s₁ with
  | owned x => simp [addString, Owned]
  | borrowed a₁ l₁ =>
    cases s₂ with
    | owned y => simp [addString, Owned]
    | borrowed a₂ l₂ =>
      simp only [addString, Owned, false_or, CowStr.borrowed.injEq]
      constructor
      · intro h
        refine ⟨a₁, l₁, a₂, l₂, ⟨rfl, rfl⟩, ⟨rfl, rfl⟩, ?_⟩
        by_cases h1 : l₂ = 0
        · rw [if_pos h1] at h
          exact h.elim
        · by_cases h2 : l₁ = 0
          · rw [if_neg h1, if_pos h2] at h
            exact h.elim
          · by_cases h3 : a₁ + l₁ = a₂
            · rw [if_neg h1, if_neg h2, if_pos h3] at h
              exact h.elim
            · omega
      · rintro ⟨_, _, _, _, ⟨rfl, rfl⟩, ⟨rfl, rfl⟩, h1, h2, h3⟩
        rw [if_neg (by omega), if_neg (by omega), if_neg h3]
        trivial

/-- A memory with the text `"abcdef"` at address 100, for the examples. -/
def exampleMemory : Memory := fun a => if 100 ≤ a ∧ a < 106 then (97 + (a - 100)).toUInt8 else 0

/-- Consecutive slices are merged, others are copied. -/
example :
    addString exampleMemory (.borrowed 100 3) (.borrowed 103 2) = .borrowed 100 5 ∧
    (CowStr.borrowed 100 5).content exampleMemory = b! "abcde" ∧
    addString exampleMemory (.borrowed 100 2) (.borrowed 103 2) = .owned (b! "abde") ∧
    addString exampleMemory (.borrowed 103 2) (.borrowed 100 3) = .owned (b! "deabc") ∧
    addSlices exampleMemory (emptyString 7) 101 [2, 0, 3] = .borrowed 101 5 := by decide +kernel

/-- The bounds rely on both strings coming from the same buffer: slices of two buffers that happen to be adjacent
in memory (here `100, …, 102` and `103, …, 105`) are merged to a slice that is in neither. -/
example : ∃ s₁ s₂, Within 100 103 s₁ ∧ Within 103 106 s₂ ∧ ¬ Within 100 103 (addString exampleMemory s₁ s₂) ∧
    ¬ Within 103 106 (addString exampleMemory s₁ s₂) :=
  ⟨.borrowed 101 2, .borrowed 103 1, by decide, by decide, by decide, by decide⟩

/-! ### C50 -/

theorem intoOwned_content (m m' : Memory) (s : CowStr) : (s.intoOwned m).content m' = s.content m := rfl

theorem intoOwnedPairs_content (m m' : Memory) (l : List (CowStr × CowStr)) :
    cowPairs m' (intoOwnedPairs m l) = cowPairs m l := by
  simp [cowPairs, intoOwnedPairs, intoOwned_content]

theorem intoOwnedPairs_params (m m' : Memory) (l : List (CowStr × CowStr)) :
    cowParams m' (intoOwnedPairs m l) = cowParams m l := by
  funext n
  simp only [cowParams, intoOwnedPairs_content]

theorem intoOwned_content_map (m m' : Memory) (o : Option CowStr) :
    (o.map (CowStr.intoOwned m)).map (CowStr.content m') = o.map (CowStr.content m) := by
  cases o <;> rfl

/-- Conversion keeps the contents, and these do not depend on the memory any more: they are the same in any other
memory `m'`, for example when the input has been freed. -/
theorem C50_content (m m' : Memory) (t : CowContentType) (d : CowDispositionType) (e : CowTransferEncoding) :
    cowContentType m' (t.intoOwned m) = cowContentType m t ∧
    cowDispositionType m' (d.intoOwned m) = cowDispositionType m d ∧
    cowTransferEncoding m' (e.intoOwned m) = cowTransferEncoding m e := by
  refine ⟨?_, ?_, ?_⟩
  · rcases t with _ | _ | _ | _ | _ | _ | _ | ⟨_ | _⟩ <;> rfl
  · rcases d with _ | _ | ⟨_ | _⟩ <;> rfl
  · rcases e with _ | _ | _ | _ | _ | ⟨_ | _⟩ <;> rfl

theorem C50_disposition (m m' : Memory) (d : CowDisposition) :
    cowDisposition m' (d.intoOwned m) = cowDisposition m d := by
  simp only [cowDisposition, CowDisposition.intoOwned, (C50_content m m' .text d.dispositionType .binary).2.1,
    intoOwned_content_map, intoOwnedPairs_params]

/-- The same for all headers of a MIME entity, so the branch of `raw_entity` for an owned input returns the same
entity as the branch for a borrowed input. -/
theorem C50_headers (m m' : Memory) (h : CowHeaderPart) : cowHeaders m' (h.intoOwned m) = cowHeaders m h := by
  obtain ⟨e, t, s, p, a, id, desc, disp⟩ := h
  simp only [cowHeaders, CowHeaderPart.intoOwned, (C50_content m m' t .inline e).1, (C50_content m m' t .inline e).2.2,
    intoOwnedPairs_params, intoOwnedPairs_content, intoOwned_content, intoOwned_content_map]
  congr 1
  · cases id <;> rfl
  · cases disp <;> simp [C50_disposition]

theorem owned_pairs (m : Memory) (l : List (CowStr × CowStr)) : ∀ s ∈ pairStrings (intoOwnedPairs m l), Owned s := by
  simp only [pairStrings, intoOwnedPairs, List.mem_flatMap, List.mem_map]
  rintro s ⟨_, ⟨⟨n, v⟩, -, rfl⟩, hs⟩
  simp only [List.mem_cons, List.not_mem_nil, or_false] at hs
  rcases hs with rfl | rfl <;> trivial

theorem owned_option (m : Memory) (o : Option CowStr) : ∀ s ∈ (o.map (CowStr.intoOwned m)).toList, Owned s := by
  cases o <;> simp [CowStr.intoOwned, Owned]

/-- After conversion no string is borrowed. -/
theorem C50_owned (m : Memory) (h : CowHeaderPart) : ∀ s ∈ headerStrings (h.intoOwned m), Owned s := by
  obtain ⟨e, t, st, p, a, id, desc, disp⟩ := h
  simp only [headerStrings, CowHeaderPart.intoOwned, List.mem_append]
  rintro s (((((((hs | hs) | hs) | hs) | hs) | hs) | hs) | hs)
  · rcases e with _ | _ | _ | _ | _ | ⟨_ | _⟩ <;> simp [CowTransferEncoding.intoOwned, transferEncodingStrings] at hs <;>
      subst hs <;> trivial
  · rcases t with _ | _ | _ | _ | _ | _ | _ | ⟨_ | _⟩ <;> simp [CowContentType.intoOwned, contentTypeStrings] at hs <;>
      subst hs <;> trivial
  · simp at hs
    subst hs
    trivial
  · exact owned_pairs m p s hs
  · exact owned_pairs m a s hs
  · cases id with
    | none => simp [pairStrings] at hs
    | some i => exact owned_pairs m [i] s hs
  · exact owned_option m desc s hs
  · cases disp with
    | none => simp at hs
    | some d =>
      obtain ⟨dt, f, _, _, _, u⟩ := d
      simp only [Option.map_some, Option.getD_some, dispositionStrings, CowDisposition.intoOwned, List.mem_append] at hs
      rcases hs with (hs | hs) | hs
      · rcases dt with _ | _ | ⟨_ | _⟩ <;> simp [CowDispositionType.intoOwned, dispositionTypeStrings] at hs <;>
          subst hs <;> trivial
      · exact owned_option m f s hs
      · exact owned_pairs m u s hs

/-- A type that borrows its name from the input; after conversion the input can change. -/
example :
    (CowContentType.unknown (.borrowed 101 3)).intoOwned exampleMemory = .unknown (.owned (b! "bcd")) ∧
    cowContentType (fun _ => 0) ((CowContentType.unknown (.borrowed 101 3)).intoOwned exampleMemory) =
      .unknown (b! "bcd") ∧
    cowContentType (fun _ => 0) (.unknown (.borrowed 101 3)) = .unknown [0, 0, 0] := by decide +kernel

end EmailParser
