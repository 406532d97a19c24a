import Verif.Proofs.SizeDecode
import Verif.Proofs.Sound.Fields
/-
The size of the values of header fields.
-/
namespace EmailParser
open Spec HasStrings

variable {α β γ δ : Type} {c : Cfg} {p : Place} {K : Nat}

/-! ### Sizes of values -/

theorem size_str (s : CowStr) : size s = bytesOf s + 1 := rfl

theorem size_of_append [HasStrings α β] [HasStrings γ δ] {x : α} {y : γ} {ε ζ : Type} [HasStrings ε ζ] {z : ε}
    (h : strings z = strings x ++ strings y) : size z = size x + size y := by
  simp only [size, h, List.map_append, List.sum_append]

theorem size_of_eq [HasStrings α β] [HasStrings γ δ] {x : α} {y : γ} (h : strings x = strings y) : size x = size y := by
  simp only [size, h]

theorem size_pair [HasStrings α β] [HasStrings γ δ] (x : α) (y : γ) : size (x, y) = size x + size y := size_of_append rfl

theorem size_some [HasStrings α β] (x : α) : size (some x) = size x := rfl

theorem size_none [HasStrings α β] : size (none : Option α) = 0 := rfl

theorem size_nil [HasStrings α β] : size ([] : List α) = 0 := rfl

theorem size_cons [HasStrings α β] (x : α) (l : List α) : size (x :: l) = size x + size l :=
  size_of_append (by simp [strings])

theorem size_append [HasStrings α β] (l l' : List α) : size (l ++ l') = size l + size l' :=
  size_of_append (by simp [strings])

theorem size_sum [HasStrings α β] : ∀ l : List α, (l.map size).sum = size l
  | [] => rfl
  | x :: l => by rw [List.map_cons, List.sum_cons, size_cons, size_sum l]

theorem size_date (d : DateTime) : size d = 0 := rfl

theorem size_emailAddress (l d : CowStr) : size (CowEmailAddress.mk l d) = (bytesOf l + 1) + (bytesOf d + 1) :=
  size_of_append (x := l) (y := d) rfl

theorem size_mailbox (n : Option (List CowStr)) (a : CowEmailAddress) : size (CowMailbox.mk n a) = size n + size a :=
  size_of_append rfl

/-! ### Parsers of values -/

/-- What is needed of the conversions from charsets. -/
structure Converts (K : Nat) (c : Cfg) : Prop where
  three : 3 ≤ K
  word (i : Bytes) : Yields (encodedWord c i) fun a => a.2.length + K * a.1.length + 1 ≤ K * i.length
  param (v charset : Bytes) : Yields (decodeParameter c v charset) fun t => t.length ≤ K * v.length
  first (encoded : Bool) (v : Bytes) : Yields (firstSegment c encoded v) fun t => t.1.length ≤ K * v.length
  text {charset v : Bytes} {t : Outcome Bytes} : decodeCharset c charset v = some t → Yields t fun t => t.length ≤ K * v.length

theorem converts {k : Nat} (hk : 2 ≤ k) (hc : TextcodeAtMost k c) : Converts (k + 1) c where
  three := by omega
  word i := encodedWord_gives (by omega) hc i
  param v charset := (decodeParameter_gives (by omega) hc v charset).mono fun _ h =>
    Nat.le_trans h (Nat.mul_le_mul_right _ (Nat.le_succ k))
  first encoded v := (firstSegment_gives (by omega) hc encoded v).mono fun _ h =>
    Nat.le_trans h (Nat.mul_le_mul_right _ (Nat.le_succ k))
  text h := (decodeCharset_gives (by omega) hc h).mono fun _ h => Nat.le_trans h (Nat.mul_le_mul_right _ (Nat.le_succ k))

/-- The value is at most `K` times as large as the text that was read. -/
def Light [HasStrings α β] (K : Nat) (i : Bytes) (x : Res α) : Prop :=
  Yields x fun a => size a.2 + K * a.1.length ≤ K * i.length

/-- The same for the text of a line, whose name and end are not yet counted. -/
def LightValue [HasStrings α β] (K : Nat) (i : Bytes) (x : Res α) : Prop :=
  Yields x fun a => size a.2 + K * a.1.length ≤ K * i.length + K

theorem Light.value [HasStrings α β] {i : Bytes} {x : Res α} (h : Light K i x) : LightValue K i x :=
  h.mono fun _ h => by omega

theorem Short.light {i : Bytes} {x : Res CowStr} (hK : 2 ≤ K) (h : Short i x) : Light K i x := by
  refine h.mono fun a ha => ?_
  rw [size_str]
  obtain ⟨d, hd⟩ : ∃ d, i.length = a.1.length + d := ⟨_, (Nat.add_sub_cancel' (Nat.le_of_lt ha.2)).symm⟩
  have := Nat.mul_le_mul_right d hK
  rw [hd, Nat.mul_add]
  omega

theorem times_le (K : Nat) {m n : Nat} (h : m ≤ n) : K * m ≤ K * n := Nat.mul_le_mul_left K h

theorem times_lt (K : Nat) {m n : Nat} (h : m < n) : K + K * m ≤ K * n := by
  have := Nat.mul_le_mul_left K (show m + 1 ≤ n from h)
  rw [Nat.mul_add] at this
  omega

theorem skipCfws_times (K : Nat) (i : Bytes) : Yields (skipCfws c i) fun r => K * r.length ≤ K * i.length :=
  (skipCfws_gives i).mono fun _ => times_le K

theorem tag_times (K : Nat) {e : Bytes} {m : String} (i : Bytes) (he : 0 < e.length) :
    Yields (tag i e m) fun a => K + K * a.1.length ≤ K * i.length :=
  (tag_gives' he i).mono fun a h => times_lt K (by omega)

theorem parses_times (K : Nat) {A : Aborts} {G : Gram α} {q : Bytes → Res α} (h : Parses A G q) (i : Bytes) :
    Yields (q i) fun a => K * a.1.length ≤ K * i.length := (parses_gives h i).mono fun _ => times_le K

/-- What was read to the end of the line. -/
theorem headerLine_light [HasStrings α β] {x : Bytes → Res α} {n n2 : Bytes} {m m' : String} (hn : n2 = n.map swapCase)
    (h : ∀ i, LightValue K i (x i)) (i : Bytes) : Light K i (headerLine n n2 m m' x i) := by
  unfold headerLine
  refine (parses_times K (tagNoCase_parses (A := .none) m hn) i).bind fun a1 h1 => (h _).bind fun a2 h2 =>
    (tag_times K _ (by decide)).bind fun a3 h3 => .ok ?_
  dsimp only at *
  omega

theorem resent_light [HasStrings α β] {x : Bytes → Res α} {m : String} (h : ∀ i, Light K i (x i)) (i : Bytes) :
    Light K i (resent m x i) := by
  unfold resent
  refine (parses_times K (tagNoCase_parses (A := .none) m (by decide +kernel)) i).bind fun a1 h1 => (h _).bind fun a2 h2 => .ok ?_
  dsimp only at *
  omega

theorem mapValue_light [HasStrings α β] [HasStrings γ δ] {x : Bytes → Res α} {f : α → γ} {i : Bytes} (h : Light K i (x i))
    (hf : ∀ v, size (f v) ≤ size v) : Light K i (mapValue f x i) := by
  unfold mapValue
  refine h.bind fun a ha => .ok ?_
  have := hf a.2
  dsimp only at *
  omega

theorem many_light [HasStrings α β] {q : Bytes → Res α} (h : ∀ i, Light K i (q i)) (i : Bytes) : Light K i (many i q) :=
  (many_gives (g := size) h i).mono fun a ha => by rwa [size_sum] at ha

theorem many1_light [HasStrings α β] {q : Bytes → Res α} (h : ∀ i, Light K i (q i)) (i : Bytes) : Light K i (many1 i q) :=
  (many1_gives (g := size) h i).mono fun a ha => by rwa [size_sum] at ha

theorem optional_light [HasStrings α β] {q : Bytes → Res α} {i : Bytes} (h : Light K i (q i)) : Light K i (optional i q) :=
  optional_gives h (fun _ _ h => h) (by dsimp only; rw [size_none]; omega)

theorem prefixed_light [HasStrings α β] {q : Bytes → Res α} (h : ∀ i, Light K i (q i)) (e i : Bytes) :
    Light K i (prefixed i q e) :=
  prefixed_gives (P := fun n a => size a.2 + K * a.1.length ≤ K * n)
    (fun _ _ _ h hn => Nat.le_trans h (Nat.mul_le_mul_left K hn)) h e i

theorem list_light [HasStrings α β] {x : Bytes → Res α} {e : Bytes} (h : ∀ i, Light K i (x i)) (i : Bytes) :
    Light K i (do
      let (input, first) ← x i
      let (input, others) ← many input fun input => prefixed input x e
      (.ok (input, first :: others) : Res (List α))) := by
  refine (h i).bind fun a1 h1 => (many_light (fun i => prefixed_light h e i) _).bind fun a2 h2 => .ok ?_
  dsimp only at *
  rw [size_cons]
  omega

theorem matchParsers_light [HasStrings α β] {i : Bytes} {qs : List (Bytes → Res α)} (h : ∀ q ∈ qs, Light K i (q i)) :
    Light K i (matchParsers i qs) := matchParsers_gives h

variable (H : Converts K c)
include H

theorem Converts.two : 2 ≤ K := Nat.le_trans (by decide) H.three

theorem cowEncodedWord_light (i : Bytes) : Light K i (cowEncodedWord c i) := by
  unfold cowEncodedWord
  refine (H.word i).bind fun a ha => .ok ?_
  rw [size_str]
  dsimp only [bytesOf]
  omega

theorem cowWord_light (i : Bytes) : Light K i (cowWord c p i) := (cowWord_short i).light H.two

theorem cowPhraseWord_light (i : Bytes) : Light K i (cowPhraseWord c p i) := by
  unfold cowPhraseWord
  split
  · refine matchParsers_light ?_
    simp only [List.mem_cons, List.not_mem_nil, or_false]
    rintro q (rfl | rfl)
    · refine (parses_times K (optional_parses (fws_parses (A := .none))) i).bind fun a ha => ?_
      exact (cowEncodedWord_light H _).mono fun b hb => by omega
    · exact cowWord_light H i
  · exact cowWord_light H i

theorem cowPhrase_light (i : Bytes) : Light K i (cowPhrase c p i) := many1_light (cowPhraseWord_light H) i

omit H in
theorem cowCollectManyLoop_gives {q : Bytes → Res CowStr}
    (h : ∀ i, Yields (q i) fun a => bytesOf a.2 + K * a.1.length ≤ K * i.length) : ∀ (fuel : Nat) (i : Bytes) (out : CowStr),
    Yields (cowCollectManyLoop p q fuel i out) fun a => bytesOf a.2 + K * a.1.length ≤ bytesOf out + K * i.length
  | 0, _, _ => .abort
  | fuel + 1, i, out => by
    unfold cowCollectManyLoop
    refine (h i).cases (fun a e ha => ?_) (fun _ e => ?_) fun _ e => ?_ <;> rw [e]
    · refine (cowCollectManyLoop_gives h fuel _ _).mono fun b hb => ?_
      try dsimp only at hb
      rw [bytesOf_addString] at hb
      omega
    · exact .ok (Nat.le_refl _)
    · exact .abort

theorem bytes_times {i r : Bytes} {n : Nat} (h : n + r.length ≤ i.length) : n + K * r.length ≤ K * i.length := by
  have := Nat.mul_le_mul_left K h
  rw [Nat.mul_add] at this
  have := Nat.le_mul_of_pos_left n (show 0 < K by have := H.three; omega)
  omega

theorem cowUnstructured_light (i : Bytes) : LightValue K i (cowUnstructured p i) := by
  unfold cowUnstructured cowCollectMany
  refine (cowCollectManyLoop_gives (K := K) (fun i => ?_) _ _ _).bind fun a1 h1 =>
    (parses_times K (dropWsp_parses (A := .none)) _).bind fun a2 h2 => .ok ?_
  · unfold cowCollectPair
    refine (cowFwsOrEmpty_gives i).bind fun a1 h1 => ?_
    refine (Yields.bind (takeWhile1_gives _ _) (Q := fun a => bytesOf a.2 + a.1.length ≤ a1.1.length) fun a h => .ok ?_).bind
      fun a2 h2 => .ok ?_
    · dsimp only
      rw [bytesOf_slice]
      omega
    · dsimp only
      rw [bytesOf_addString]
      exact bytes_times H (by omega)
  · rw [bytesOf_empty] at h1
    have := H.three
    dsimp only at *
    rw [size_str]
    omega

theorem cowMimeUnstructuredLoop_gives : ∀ (fuel : Nat) (prev : Bool) (i : Bytes) (out : CowStr),
    Yields (cowMimeUnstructuredLoop c p fuel prev i out) fun a => bytesOf a.2 + K * a.1.length ≤ bytesOf out + K * i.length
  | 0, _, _, _ => .abort
  | fuel + 1, prev, i, out => by
    unfold cowMimeUnstructuredLoop
    refine (cowFwsOrEmpty_gives i).bind ?_
    rintro ⟨r, wsp⟩ h
    have h := bytes_times H h
    dsimp only at h ⊢
    refine (cowEncodedWord_light H r).cases (fun a e ha => ?_) (fun _ e => ?_) fun _ e => ?_ <;> rw [e]
    · rw [size_str] at ha
      dsimp only
      split
      · refine (cowMimeUnstructuredLoop_gives fuel _ _ _).mono fun b hb => ?_
        rw [bytesOf_addString] at hb
        omega
      · refine (cowMimeUnstructuredLoop_gives fuel _ _ _).mono fun b hb => ?_
        rw [bytesOf_addString, bytesOf_addString] at hb
        omega
    · refine (takeWhile1_gives isVchar r).cases (fun a e ha => ?_) (fun _ e => ?_) fun _ e => ?_ <;> dsimp only <;> rw [e]
      · have ha := bytes_times H (Nat.le_of_eq ha.1)
        refine (cowMimeUnstructuredLoop_gives fuel _ _ _).mono fun b hb => ?_
        try dsimp only at hb
        rw [bytesOf_addString, bytesOf_addStr] at hb
        omega
      · exact .ok (Nat.le_refl _)
      · exact .abort
    · exact .abort

theorem cowMimeUnstructured_light (i : Bytes) : LightValue K i (cowMimeUnstructured c p i) := by
  unfold cowMimeUnstructured
  refine (cowMimeUnstructuredLoop_gives H _ _ _ _).bind fun a1 h1 =>
    (parses_times K (dropWsp_parses (A := .none)) _).bind fun a2 h2 => .ok ?_
  rw [bytesOf_empty] at h1
  have := H.three
  dsimp only at *
  rw [size_str]
  omega

theorem cowMessageId_light (i : Bytes) : Light K i (cowMessageId c p i) := by
  unfold cowMessageId
  refine (skipCfws_times K i).bind fun r1 h1 => (tag_times K _ (by decide)).bind fun a2 h2 =>
    ((cowDotAtomText_short _).light H.two).bind fun a3 h3 => (tag_times K _ (by decide)).bind fun a4 h4 =>
    (matchParsers_light (K := K) ?_).bind fun a5 h5 => (tag_times K _ (by decide)).bind fun a6 h6 =>
    (skipCfws_times K _).bind fun r7 h7 => .ok ?_
  · simp only [List.mem_cons, List.not_mem_nil, or_false]
    rintro q (rfl | rfl)
    · exact (cowDotAtomText_short _).light H.two
    · exact (cowNoFoldLitteral_short _).light H.two
  · dsimp only at *
    rw [size_pair]
    omega

theorem cowEmailAddress_light (i : Bytes) : Light K i (cowEmailAddress c p i) := by
  unfold cowEmailAddress
  refine Yields.bind (P := fun a : Bytes × CowStr × CowStr => size a.2 + K * a.1.length ≤ K * i.length) ?_ fun a ha => .ok ?_
  · unfold cowAddrSpec
    refine ((cowLocalPart_short i).light H.two).bind fun a1 h1 => (tag_times K _ (by decide)).bind fun a2 h2 =>
      ((cowDomain_short _).light H.two).bind fun a3 h3 => .ok ?_
    dsimp only at *
    rw [size_pair]
    omega
  · exact ha

theorem cowAngleAddr_light (i : Bytes) : Light K i (cowAngleAddr c p i) := by
  unfold cowAngleAddr
  refine (skipCfws_times K i).bind fun r1 h1 => (tag_times K _ (by decide)).bind fun a2 h2 =>
    (cowEmailAddress_light H _).bind fun a3 h3 => (tag_times K _ (by decide)).bind fun a4 h4 =>
    (skipCfws_times K _).bind fun r5 h5 => .ok ?_
  dsimp only at *
  omega

theorem cowNameAddr_light (i : Bytes) : Light K i (cowNameAddr c p i) := by
  unfold cowNameAddr
  refine (optional_light (cowPhrase_light H i)).bind fun a1 h1 => (cowAngleAddr_light H _).bind fun a2 h2 => .ok ?_
  dsimp only at *
  rw [size_mailbox]
  omega

theorem cowMailbox_light (i : Bytes) : Light K i (cowMailbox c p i) := by
  refine matchParsers_light ?_
  simp only [List.mem_cons, List.not_mem_nil, or_false]
  rintro q (rfl | rfl)
  · exact cowNameAddr_light H i
  · refine (cowEmailAddress_light H i).bind fun a ha => .ok ?_
    dsimp only
    rw [size_mailbox, size_none]
    omega

theorem cowMailboxList_light (i : Bytes) : Light K i (cowMailboxList c p i) := list_light (cowMailbox_light H) i

theorem cowGroupList_light (i : Bytes) : Light K i (cowGroupList c p i) := by
  unfold cowGroupList
  refine (cowMailboxList_light (p := p) H i).cases (fun a e ha => ?_) (fun _ e => ?_) fun _ e => ?_ <;> rw [e]
  · exact .ok ha
  · refine (parses_times K (cfws_parses (c := c)) i).cases (fun a e ha => ?_) (fun _ e => ?_) fun _ e => ?_ <;> dsimp only <;> rw [e]
    · exact .ok (by dsimp only; rw [size_nil]; omega)
    · exact .ok (by dsimp only; rw [size_nil]; omega)
    · exact .abort
  · exact .abort

theorem cowGroup_light (i : Bytes) : Light K i (cowGroup c p i) := by
  unfold cowGroup
  refine (cowPhrase_light H i).bind fun a1 h1 => (tag_times K _ (by decide)).bind fun a2 h2 =>
    (cowGroupList_light H _).bind fun a3 h3 => (tag_times K _ (by decide)).bind fun a4 h4 =>
    (skipCfws_times K _).bind fun r5 h5 => .ok ?_
  dsimp only at *
  rw [size_pair]
  omega

theorem cowAddress_light (i : Bytes) : Light K i (cowAddress c p i) := by
  unfold cowAddress
  refine (cowMailbox_light (p := p) H i).cases (fun a e ha => ?_) (fun _ e => ?_) fun _ e => ?_ <;> rw [e]
  · exact .ok ha
  · refine (cowGroup_light (p := p) H i).cases (fun a e ha => ?_) (fun _ e => ?_) fun _ e => ?_ <;> dsimp only <;> rw [e]
    · exact .ok ha
    · exact .err
    · exact .abort
  · exact .abort

theorem cowAddressList_light (i : Bytes) : Light K i (cowAddressList c p i) := list_light (cowAddress_light H) i

end EmailParser
