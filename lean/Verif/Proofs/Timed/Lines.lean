import Verif.Proofs.Timed.Linear
/-
The cost of whole header fields, and of sequences of them.  A field costs at most the square of the
length of its folded line, or without MIME at most in proportion to this length; the lines do not
overlap, hence the costs add up to at most the one for the length of the input.
-/
namespace EmailParser.Timed
open Spec (Folded)

variable {α β γ : Type} {c : Cfg} {i : Bytes}

/-- The square of one more. -/
def sq (n : Nat) : Nat := (n + 1) * (n + 1)

theorem sq_pos (n : Nat) : 1 ≤ sq n := Nat.mul_pos (Nat.succ_pos _) (Nat.succ_pos _)

theorem sq_mono {m n : Nat} (h : m ≤ n) : sq m ≤ sq n := Nat.mul_le_mul (by omega) (by omega)

theorem sq_add {l m n : Nat} (h : n = m + 2 + l) : sq l + sq m + 1 ≤ sq n := by
  subst h
  have e : ∀ x y : Nat, (x + y) * (x + y) = x * x + y * y + 2 * (x * y) := by
    intro x y
    rw [Nat.add_mul, Nat.mul_add, Nat.mul_add, Nat.mul_comm y x]
    omega
  unfold sq
  rw [show m + 2 + l + 1 = (l + 1) + (m + 1 + 1) by omega, e (l + 1) (m + 1 + 1), e (m + 1) 1]
  omega

/-! ### Growth -/

/-- How the cost of a line depends on its length: lines that do not overlap can be added up. -/
class Growth (g : Nat → Nat) : Prop where
  pos : ∀ n, 1 ≤ g n
  lin : ∀ n, n + 1 ≤ g n
  mono : ∀ {m n}, m ≤ n → g m ≤ g n
  add : ∀ {l m n}, n = m + 2 + l → g l + g m + 1 ≤ g n

instance : Growth sq where
  pos := sq_pos
  lin _ := Nat.le_mul_of_pos_left _ (Nat.succ_pos _)
  mono := sq_mono
  add := sq_add

/-- One more. -/
def lin (n : Nat) : Nat := n + 1

instance : Growth lin where
  pos n := Nat.succ_pos n
  lin n := Nat.le_refl _
  mono h := Nat.succ_le_succ h
  add h := by
    unfold Timed.lin
    omega

variable {g : Nat → Nat} [Growth g]

/-- The computation costs at most this for what remains of the line. -/
def Cost (g : Nat → Nat) (F : Nat) (i : Bytes) (x : TRes α) : Prop :=
  Within x 0 (fun a k => Adv i a.1 ∧ k ≤ F * g (reach i)) fun k => k ≤ F * g (reach i)

omit [Growth g] in
theorem Cost.mono {F G : Nat} {x : TRes α} (h : Cost g F i x) (hFG : F ≤ G) : Cost g G i x :=
  Within.mono h (fun _ _ h => ⟨h.1, Nat.le_trans h.2 (Nat.mul_le_mul_right _ hFG)⟩)
    fun _ h => Nat.le_trans h (Nat.mul_le_mul_right _ hFG)

theorem Flat.cost {F : Nat} {x : TRes α} (h : Flat F i x) : Cost g F i x := by
  have hl : F * (reach i + 1) ≤ F * g (reach i) := Nat.mul_le_mul_left _ (Growth.lin _)
  exact Within.mono h (fun _ _ h => ⟨h.1, Nat.le_trans h.2 hl⟩) fun _ h => Nat.le_trans h hl

theorem Quad.cost {F : Nat} {x : TRes α} (h : Quad F i x) : Cost sq F i x := h

/-- The cost of the values that are lists. -/
structure Values (g : Nat → Nat) (c : Cfg) : Prop where
  mailboxList : ∀ j, Cost g 6757 j (mailboxList c j)
  addressList : ∀ j, Cost g 36000 j (addressList c j)
  bccValue : ∀ j, Cost g 36060 j (bccValue c j)
  messageIds : ∀ j, Cost g 590 j (messageIds c j)
  keywordList : ∀ j, Cost g 2795 j (keywordList c j)
  receivedValue : ∀ j, Cost g 4873 j (receivedValue c j)
  contentType : c.feat.mime = true → ∀ j, Cost g 484 j (contentTypeValue c j)
  contentDisposition : c.feat.mime = true → ∀ j, Cost g 1625 j (contentDispositionValue c j)

/-- In general. -/
theorem Values.quad (c : Cfg) : Values sq c where
  mailboxList _ := mailboxList_semi.quad.cost.mono (by decide)
  addressList _ := addressList_quad.cost
  bccValue _ := bccValue_quad.cost
  messageIds _ := messageIds_quad.cost.mono (by decide)
  keywordList _ := keywordList_quad.cost.mono (by decide)
  receivedValue _ := receivedValue_quad.cost.mono (by decide)
  contentType _ _ := contentTypeValue_quad.cost
  contentDisposition _ _ := contentDispositionValue_quad.cost

/-- Without MIME. -/
theorem Values.lin {c : Cfg} (hm : c.feat.mime = false) : Values lin c where
  mailboxList _ := (mailboxList_flat hm).cost
  addressList _ := (addressList_flat hm).cost.mono (by decide)
  bccValue _ := (bccValue_flat hm).cost.mono (by decide)
  messageIds _ := messageIds_flat.cost
  keywordList _ := (keywordList_flat hm).cost
  receivedValue _ := receivedValue_flat.cost
  contentType h := absurd h (by rw [hm]; decide)
  contentDisposition h := absurd h (by rw [hm]; decide)

/-! ### One line -/

/-- The input, of which `r` remains, has been read up to the end of a folded line. -/
def LineRead (i r : Bytes) : Prop := ∃ s, Adv i s ∧ s = 13 :: 10 :: r

/-- A parser of one header field. -/
def Line (g : Nat → Nat) (F : Nat) (i : Bytes) (x : TRes α) : Prop :=
  Within x 0 (fun a k => LineRead i a.1 ∧ k ≤ F * g (reach i)) (fun k => k ≤ F * g (reach i)) ∧
    (Starts isWsp i → Within x 0 (fun _ _ => False) fun k => k ≤ F)

theorem reach_end {r : Bytes} (h : Stops isWsp r) : reach (13 :: 10 :: r) = 0 := by
  cases r with
  | nil => decide
  | cons x t =>
    have hx : Spec.wsp x = false := by
      have := stops_cons.mp h
      exact (by decide +kernel : ∀ x, isWsp x = false → Spec.wsp x = false) x this
    rw [reach]
    simp [hx, show lineChar 13 = false from by decide]

/-- The next line does not overlap with the one that has been read, unless it starts with white
space. -/
theorem LineRead.length {r : Bytes} (h : LineRead i r) : Starts isWsp r ∨ i.length = r.length + 2 + reach i := by
  obtain ⟨s, ha, rfl⟩ := h
  rcases starts_or_stops isWsp r with h | h
  · exact .inl h
  · right
    have := ha.length
    rw [reach_end h] at this
    simp at this
    omega

theorem LineRead.le {r : Bytes} (h : LineRead i r) : r.length + 2 ≤ i.length := by
  obtain ⟨s, ⟨w, rfl, _⟩, rfl⟩ := h
  simp

namespace Line

variable {F G : Nat}

omit [Growth g] in
theorem mono {x : TRes α} (h : Line g F i x) (hFG : F ≤ G) : Line g G i x :=
  ⟨h.1.mono (fun _ _ h => ⟨h.1, Nat.le_trans h.2 (Nat.mul_le_mul_right _ hFG)⟩)
    fun _ h => Nat.le_trans h (Nat.mul_le_mul_right _ hFG),
   fun hs => (h.2 hs).mono (fun _ _ h => h) fun _ h => Nat.le_trans h hFG⟩

omit [Growth g] in
theorem map {x : TRes α} (f : α → β) (h : Line g F i x) :
    Line g F i (x >>= fun a => .ok (a.1, f a.2)) := by
  refine ⟨Within.bind h.1 ?_ ?_, fun hs => Within.bind (h.2 hs) ?_ ?_⟩
  · rintro ⟨r, v⟩ k _ ⟨h1, h2⟩
    exact within_ok.mpr ⟨h1, by omega⟩
  · rintro k _ h
    omega
  · rintro _ _ _ h
    exact h.elim
  · rintro k _ h
    omega

omit [Growth g] in
theorem nil : Line g 0 i (matchParsers i ([] : List (Bytes → TRes α))) :=
  ⟨within_err.mpr (by omega), fun _ => within_err.mpr (by omega)⟩

omit [Growth g] in
theorem cons {p : Bytes → TRes α} {ps : List (Bytes → TRes α)} (h : Line g F i (p i))
    (hs : Line g G i (matchParsers i ps)) : Line g (F + G) i (matchParsers i (p :: ps)) := by
  unfold matchParsers
  refine ⟨Within.on h.1 ?_ ?_ ?_, fun hw => Within.on (h.2 hw) ?_ ?_ ?_⟩
  · rintro ⟨r, v⟩ k _ ⟨h1, h2⟩
    exact within_ok.mpr ⟨h1, by rw [Nat.add_mul]; omega⟩
  · rintro e k _ hk
    refine hs.1.use ?_ ?_
    · rintro ⟨r, v⟩ m _ ⟨h1, h2⟩
      exact ⟨h1, by rw [Nat.add_mul]; omega⟩
    · rintro m _ hm
      rw [Nat.add_mul]; omega
  · rintro e k _ hk
    exact within_abort.mpr (by rw [Nat.add_mul]; omega)
  · rintro _ _ _ h
    exact h.elim
  · rintro e k _ hk
    refine (hs.2 hw).use ?_ ?_
    · rintro _ _ _ h
      exact h
    · rintro m _ hm
      omega
  · rintro e k _ hk
    exact within_abort.mpr (by omega)

theorem crlf {x : TRes α} {m : String} (f : α → β) (h : Cost g F i x) :
    Within (x >>= fun a => tag a.1 (b! "\r\n") m >>= fun b => .ok (b.1, f a.2)) 0
      (fun a k => LineRead i a.1 ∧ k ≤ (F + 3) * g (reach i)) fun k => k ≤ (F + 3) * g (reach i) := by
  have hp := Growth.pos (g := g) (reach i)
  refine Within.bind h ?_ ?_
  · rintro ⟨r, v⟩ k _ ⟨ha, hk⟩
    have hk : k ≤ F * g (reach i) := hk
    have hc := tag_cost r (b! "\r\n") m
    dsimp only
    rcases tag_cases r (b! "\r\n") m with ⟨s, rfl, ht⟩ | ⟨hn, ht⟩
    · refine Within.bind (S := fun a k => a.1 = s ∧ k = 3) (F := fun k => k = 3)
        (within_of_out (by rw [tag_out, ht]) ⟨rfl, by rw [hc]; rfl⟩) ?_ ?_
      · rintro ⟨_, _⟩ _ _ ⟨rfl, rfl⟩
        exact within_ok.mpr ⟨⟨_, ha, rfl⟩, by rw [Nat.add_mul]; omega⟩
      · rintro _ _ rfl
        rw [Nat.add_mul]; omega
    · refine Within.bind (S := fun a k => False) (F := fun k => k = 3)
        (within_of_err (by rw [tag_out, ht]) (by rw [hc]; rfl)) ?_ ?_
      · rintro _ _ _ h
        exact h.elim
      · rintro _ _ rfl
        rw [Nat.add_mul]; omega
  · rintro k _ hk
    have hk : k ≤ F * g (reach i) := hk
    rw [Nat.add_mul]; omega

theorem LineRead.adv {j r : Bytes} (ha : Adv i j) (h : LineRead j r) : LineRead i r := by
  obtain ⟨s, hs, e⟩ := h
  exact ⟨s, ha.trans hs, e⟩

theorem name_not_wsp {name name2 : Bytes} {m : String} {r : Bytes} {u : Unit} (hn : name2 = name.map swapCase)
    (hv : ∀ x ∈ name, Spec.vchar x = true) (hne : name ≠ [])
    (ho : (tagNoCase i name name2 m).out = .ok (r, u)) : ¬ Starts isWsp i := by
  rintro ⟨b, t, rfl, hb⟩
  rw [tagNoCase_out] at ho
  have := tagNoCase_parses (A := .none) m hn (b :: t)
  dsimp only at this
  rw [ho] at this
  obtain ⟨w, e, hw⟩ := this
  have hw : w.map asciiLower = name.map asciiLower := hw
  cases w with
  | nil =>
    cases name with
    | nil => exact hne rfl
    | cons x n => simp at hw
  | cons x w =>
    obtain ⟨rfl, -⟩ : b = x ∧ _ := by simpa using e
    have : asciiLower b ∈ name.map asciiLower := hw ▸ List.mem_map.2 ⟨b, by simp, rfl⟩
    obtain ⟨y, hy, he⟩ := List.mem_map.1 this
    have h1 := lower_printable b y he.symm (hv y hy)
    have h2 := (by decide +kernel : ∀ x, Spec.vchar x = true → isWsp x = false) b h1
    rw [h2] at hb
    exact Bool.noConfusion hb

/-- A header field costs its name, its value and the end of the line. -/
theorem header {name name2 : Bytes} {m m' : String} {value : Bytes → TRes α} (hn : name2 = name.map swapCase)
    (hv : ∀ x ∈ name, Spec.vchar x = true) (hne : name ≠ []) (hl : name.length ≤ 50) (h : ∀ j, Cost g F j (value j)) :
    Line g (F + 54) i (headerLine name name2 m m' value i) := by
  have hp := Growth.pos (g := g) (reach i)
  have hc := tagNoCase_cost i name name2 m
  unfold headerLine
  refine ⟨?_, fun hw => ?_⟩
  · refine Within.bind ((tagNoCase_flat hn hv m i).and .self) ?_ ?_
    · rintro ⟨r, u⟩ k _ ⟨⟨ha, _⟩, hk⟩
      have hr : g (reach r) ≤ g (reach i) := Growth.mono (g := g) ha.le
      have hF := Nat.mul_le_mul_left (F + 3) hr
      refine (crlf (m := m') id (h r)).use ?_ ?_
      · rintro ⟨s, v⟩ l _ ⟨h1, h2⟩
        refine ⟨LineRead.adv ha h1, ?_⟩
        rw [show F + 54 = (F + 3) + 51 from rfl, Nat.add_mul (F + 3)]
        omega
      · rintro l _ h1
        rw [show F + 54 = (F + 3) + 51 from rfl, Nat.add_mul (F + 3)]
        omega
    · rintro k _ ⟨_, hk⟩
      rw [Nat.add_mul F 54]
      omega
  · refine Within.bind .self ?_ ?_
    · rintro ⟨r, u⟩ k ho _
      exact absurd hw (name_not_wsp hn hv hne ho)
    · rintro k _ hk
      omega

theorem resent {m : String} {p : Bytes → TRes α} (h : ∀ j, Line g F j (p j)) :
    Line g (F + 8) i (Timed.resent m p i) := by
  have hp := Growth.pos (g := g) (reach i)
  have hc : (tagNoCase i (b! "Resent-") (b! "rESENT-") m).cost ≤ 8 := tagNoCase_cost ..
  have hv : ∀ x ∈ b! "Resent-", Spec.vchar x = true := by decide +kernel
  unfold Timed.resent
  refine ⟨?_, fun hw => ?_⟩
  · refine Within.bind ((tagNoCase_flat (by decide +kernel) hv m i).and .self) ?_ ?_
    · rintro ⟨r, u⟩ k _ ⟨⟨ha, _⟩, hk⟩
      have hr : g (reach r) ≤ g (reach i) := Growth.mono (g := g) ha.le
      have hF := Nat.mul_le_mul_left F hr
      dsimp only
      refine (h r).1.bind ?_ ?_
      · rintro ⟨s, v⟩ l _ ⟨h1, h2⟩
        exact within_ok.mpr ⟨LineRead.adv ha h1, by rw [Nat.add_mul F]; omega⟩
      · rintro l _ h1
        rw [Nat.add_mul F]
        omega
    · rintro k _ ⟨_, hk⟩
      rw [Nat.add_mul F]
      omega
  · refine Within.bind .self ?_ ?_
    · rintro ⟨r, u⟩ k ho _
      exact absurd hw (name_not_wsp (by decide +kernel) hv (by decide) ho)
    · rintro k _ hk
      omega

theorem ftext_not_wsp : ∀ x, isFtext x = true → isWsp x = false := by decide +kernel

theorem unknown : Line g 407 i (Timed.unknown c i) := by
  unfold Timed.unknown
  refine ⟨?_, fun hw => ?_⟩
  · have hp : reach i + 1 ≤ g (reach i) := Growth.lin _
    refine Within.bind (Flat.takeWhile1 ftext_line) ?_ ?_
    · rintro ⟨r, name⟩ k _ ⟨ha, hk⟩
      dsimp only at *
      refine Within.bind (tag_within (by decide +kernel) r _) ?_ ?_
      · rintro ⟨r', u⟩ k' _ ⟨ha', _, _, hk'⟩
        have hr : g (reach r') ≤ g (reach i) := Growth.mono (g := g) (ha.trans ha').le
        have hk' : k' = 2 := hk'
        refine (crlf (Prod.mk name) ((Flat.unknownValue (i := r')).cost (g := g))).use ?_ ?_
        · rintro ⟨s, v⟩ l _ ⟨h1, h2⟩
          exact ⟨LineRead.adv (ha.trans ha') h1, by omega⟩
        · rintro l _ h1
          omega
      · rintro k' _ ⟨_, hk'⟩
        have hk' : k' = 2 := hk'
        omega
    · rintro k _ hk
      omega
  · refine Within.bind (takeWhile1_within ftext_line i) ?_ ?_
    · rintro ⟨r, v⟩ k _ ⟨_, _, e, hv, hl, _⟩
      dsimp only at *
      have := starts_run (r := r) hl hv
      rw [← e] at this
      exact absurd hw (this.not ftext_not_wsp)
    · rintro k _ ⟨_, hk⟩
      omega

omit [Growth g] in
theorem enabled {b : Bool} {p : Bytes → TRes α} {ps : List (Bytes → TRes α)} (h : b = true → Line g F i (p i))
    (hs : Line g G i (matchParsers i ps)) : Line g (F + G) i (matchParsers i (EmailParser.enabled b p ++ ps)) := by
  cases b with
  | true => exact cons (h rfl) hs
  | false => exact hs.mono (by omega)

omit [Growth g] in
theorem value {p : Bytes → TRes α} (f : α → β) (h : Line g F i (p i)) : Line g F i (mapValue f p i) := h.map f

/-! ### The fields -/

local macro "header" t:term:max : term => `(header (by decide +kernel) (by decide +kernel) (by decide) (by decide) $t)

theorem dateField : Line g 182 i (Timed.dateField c i) := header fun _ => Flat.dateTime.cost
theorem fromField (V : Values g c) : Line g 6811 i (Timed.fromField c i) := header V.mailboxList
theorem senderField : Line g 2036 i (Timed.senderField c i) := header fun _ => Flat.mailbox.cost
theorem replyToField (V : Values g c) : Line g 36054 i (Timed.replyToField c i) := header V.addressList
theorem toField (V : Values g c) : Line g 36054 i (Timed.toField c i) := header V.addressList
theorem ccField (V : Values g c) : Line g 36054 i (Timed.ccField c i) := header V.addressList
theorem bccField (V : Values g c) : Line g 36114 i (Timed.bccField c i) := header V.bccValue
theorem messageIdField : Line g 202 i (Timed.messageIdField c i) := header fun _ => Flat.messageId.cost
theorem inReplyToField (V : Values g c) : Line g 644 i (Timed.inReplyToField c i) := header V.messageIds
theorem referencesField (V : Values g c) : Line g 644 i (Timed.referencesField c i) := header V.messageIds
theorem subjectField : Line g 454 i (Timed.subjectField c i) := header fun _ => Flat.textValue.cost
theorem commentsField : Line g 454 i (Timed.commentsField c i) := header fun _ => Flat.textValue.cost
theorem keywordsField (V : Values g c) : Line g 2849 i (Timed.keywordsField c i) := header V.keywordList
theorem mimeVersion : Line g 186 i (Timed.mimeVersion c i) := header fun _ => Flat.mimeVersionValue.cost
theorem contentType (V : Values g c) (hm : c.feat.mime = true) : Line g 538 i (Timed.contentType c i) := header (V.contentType hm)
theorem contentTransferEncoding : Line g 278 i (Timed.contentTransferEncoding c i) :=
  header fun _ => Flat.transferEncodingValue.cost
theorem contentId : Line g 202 i (Timed.contentId c i) := header fun _ => Flat.messageId.cost
theorem contentDescription : Line g 254 i (Timed.contentDescription c i) := header fun _ => Flat.mimeUnstructured.cost
theorem contentDisposition (V : Values g c) (hm : c.feat.mime = true) :
    Line g 1679 i (Timed.contentDisposition c i) := header (V.contentDisposition hm)
theorem returnPath : Line g 891 i (Timed.returnPath c i) := header fun _ => Flat.returnPathValue.cost
theorem received (V : Values g c) : Line g 4927 i (Timed.received c i) := header V.receivedValue

theorem field (V : Values g c) : Line g 170000 i (Timed.field c i) := by
  unfold Timed.field fieldParsers
  simp only [List.append_assoc]
  refine Line.mono (F := _) (enabled (fun _ => value _ dateField) <| enabled (fun _ => value _ (fromField V)) <| enabled (fun _ => value _ senderField) <|
    enabled (fun _ => value _ (replyToField V)) <| enabled (fun _ => value _ (toField V)) <| enabled (fun _ => value _ (ccField V)) <|
    enabled (fun _ => value _ (bccField V)) <| enabled (fun _ => value _ messageIdField) <| enabled (fun _ => value _ (inReplyToField V)) <|
    enabled (fun _ => value _ (referencesField V)) <| enabled (fun _ => value _ subjectField) <| enabled (fun _ => value _ commentsField) <|
    enabled (fun _ => value _ mimeVersion) <| enabled (fun h => value _ (contentType V h)) <| enabled (fun _ => value _ contentTransferEncoding) <|
    enabled (fun _ => value _ contentId) <| enabled (fun _ => value _ contentDescription) <| enabled (fun h => value _ (contentDisposition V h)) <|
    enabled (fun _ => value _ (keywordsField V)) <| cons (value _ unknown) nil) (by decide)

theorem traceField (V : Values g c) : Line g 160000 i (matchParsers i (traceFieldParsers c)) := by
  unfold traceFieldParsers
  refine Line.mono (F := _) (cons (value _ (resent fun _ => dateField)) <| cons (value _ (resent fun _ => fromField V)) <|
    cons (value _ (resent fun _ => senderField)) <| cons (value _ (resent fun _ => toField V)) <|
    cons (value _ (resent fun _ => ccField V)) <| cons (value _ (resent fun _ => bccField V)) <|
    cons (value _ (resent fun _ => messageIdField)) nil) (by decide)

end Line

/-! ### Several lines -/

/-- The budget for each pair of bytes of the input. -/
def budget : Nat := 2000000

/-- A sequence of header fields: either nothing is read, with a cost proportional to the square of the
line; or the input ends in the middle of a line, where nothing more can be read; or each line read has
been paid. -/
def Lines (g : Nat → Nat) (A S : Nat) (i : Bytes) (x : TRes α) : Prop :=
  Within x 0
    (fun a k => (a.1 = i ∧ k ≤ A * g (reach i)) ∨
      (a.1.length ≤ i.length ∧ Starts isWsp a.1 ∧ k ≤ budget * g i.length + A * g i.length) ∨
      (a.1.length ≤ i.length ∧
        k + budget * g a.1.length + S * g (reach i) ≤ budget * g i.length + A * g (reach a.1)))
    (fun k => k ≤ budget * g i.length + A * g i.length) ∧
  (Starts isWsp i → Within x 0 (fun a k => a.1 = i ∧ k ≤ A) fun k => k ≤ A)

theorem Line.lines {F S : Nat} {x : TRes α} (h : Line g F i x) (hb : F + S ≤ budget) : Lines g F S i x := by
  have hi : g (reach i) ≤ g i.length := Growth.mono (g := g) (reach_le i)
  have hF : F * g (reach i) ≤ F * g i.length := Nat.mul_le_mul_left _ hi
  refine ⟨h.1.mono ?_ ?_, fun hs => (h.2 hs).mono ?_ ?_⟩
  · rintro ⟨r, v⟩ k ⟨hl, hk⟩
    right
    have hle := hl.le
    dsimp only at *
    rcases hl.length with hw | hl
    · exact .inl ⟨by omega, hw, by omega⟩
    · refine .inr ⟨by omega, ?_⟩
      have h1 := Growth.add (g := g) hl
      have h2 : budget * (g (reach i) + g r.length + 1) ≤ budget * g i.length := Nat.mul_le_mul_left _ h1
      have h3 : (F + S) * g (reach i) ≤ budget * g (reach i) := Nat.mul_le_mul_right _ hb
      rw [Nat.add_mul] at h3
      rw [Nat.mul_add, Nat.mul_add] at h2
      omega
  · intro k hk
    omega
  · rintro a k h
    exact h.elim
  · exact fun k h => h

theorem Lines.bind {A B S : Nat} {x : TRes α} {f : Bytes × α → TRes β} (h : Lines g A S i x)
    (hf : ∀ r v, x.out = .ok (r, v) → Lines g B S r (f (r, v))) (hA : A ≤ S) :
    Lines g (A + B) (S - A) i (x >>= f) := by
  have hi : g (reach i) ≤ g i.length := Growth.mono (g := g) (reach_le i)
  have hAi : A * g (reach i) ≤ A * g i.length := Nat.mul_le_mul_left _ hi
  have hBi : B * g (reach i) ≤ B * g i.length := Nat.mul_le_mul_left _ hi
  obtain ⟨T, rfl⟩ := Nat.exists_eq_add_of_le hA
  rw [Nat.add_sub_cancel_left]
  have e1 : ∀ n, (A + B) * n = A * n + B * n := fun n => Nat.add_mul ..
  have e2 : ∀ n, (A + T) * n = A * n + T * n := fun n => Nat.add_mul ..
  have hp := Growth.pos (g := g) i.length
  have hBp : B ≤ B * g i.length := Nat.le_mul_of_pos_right _ hp
  refine ⟨Within.bind h.1 ?_ ?_, fun hs => Within.bind (h.2 hs) ?_ ?_⟩
  · rintro ⟨r, v⟩ k ho hk
    have hr := hf r v ho
    dsimp only at *
    rcases hk with ⟨rfl, hk⟩ | ⟨hl, hw, hk⟩ | ⟨hl, hk⟩
    · refine hr.1.use ?_ ?_
      · rintro ⟨s, w⟩ m _ hm
        simp only [e1, e2] at *
        rcases hm with ⟨rfl, hm⟩ | ⟨hl, hw, hm⟩ | ⟨hl, hm⟩
        · exact .inl ⟨rfl, by omega⟩
        · exact .inr (.inl ⟨hl, hw, by omega⟩)
        · refine .inr (.inr ⟨hl, ?_⟩)
          have : 0 ≤ A * g (reach s) := Nat.zero_le _
          omega
      · rintro m _ hm
        simp only [e1] at *
        omega
    · refine (hr.2 hw).use ?_ ?_
      · rintro ⟨s, w⟩ m _ ⟨hm1, hm⟩
        dsimp only at *
        subst hm1
        simp only [e1] at *
        exact .inr (.inl ⟨hl, hw, by omega⟩)
      · rintro m _ hm
        simp only [e1] at *
        omega
    · have hrl : g (reach r) ≤ g i.length := Growth.mono (g := g) (Nat.le_trans (reach_le r) hl)
      have hrr : g r.length ≤ g i.length := Growth.mono (g := g) hl
      have h1 : A * g (reach r) ≤ A * g i.length := Nat.mul_le_mul_left _ hrl
      have h2 : B * g r.length ≤ B * g i.length := Nat.mul_le_mul_left _ hrr
      refine hr.1.use ?_ ?_
      · rintro ⟨s, w⟩ m _ hm
        simp only [e1, e2] at *
        rcases hm with ⟨rfl, hm⟩ | ⟨hl', hw, hm⟩ | ⟨hl', hm⟩
        · exact .inr (.inr ⟨hl, by omega⟩)
        · exact .inr (.inl ⟨by omega, hw, by omega⟩)
        · exact .inr (.inr ⟨by omega, by omega⟩)
      · rintro m _ hm
        simp only [e1, e2] at *
        omega
  · rintro k _ hk
    rw [e1]
    omega
  · rintro ⟨r, v⟩ k ho ⟨h1, hk⟩
    have hr := hf r v ho
    dsimp only at *
    subst h1
    refine (hr.2 hs).use ?_ ?_
    · rintro ⟨s, w⟩ m _ ⟨h1, hm⟩
      exact ⟨h1, by omega⟩
    · rintro m _ hm
      omega
  · rintro k _ hk
    omega

omit [Growth g] in
theorem Lines.okay {S : Nat} {v : α} : Lines g 0 S i (.ok (i, v) : TRes α) :=
  ⟨within_ok.mpr (.inl ⟨rfl, by omega⟩), fun _ => within_ok.mpr ⟨rfl, by omega⟩⟩

omit [Growth g] in
theorem Lines.mono {A B S T : Nat} {x : TRes α} (h : Lines g A S i x) (hA : A ≤ B) (hS : T ≤ S) : Lines g B T i x := by
  have hAB : ∀ n, A * n ≤ B * n := fun n => Nat.mul_le_mul_right _ hA
  have hTS : T * g (reach i) ≤ S * g (reach i) := Nat.mul_le_mul_right _ hS
  refine ⟨h.1.mono ?_ ?_, fun hs => (h.2 hs).mono ?_ ?_⟩
  · rintro ⟨r, v⟩ k hk
    dsimp only at *
    have h1 := hAB (g (reach i))
    have h2 := hAB (g i.length)
    have h3 := hAB (g (reach r))
    rcases hk with ⟨rfl, hk⟩ | ⟨hl, hw, hk⟩ | ⟨hl, hk⟩
    · exact .inl ⟨rfl, by omega⟩
    · exact .inr (.inl ⟨hl, hw, by omega⟩)
    · exact .inr (.inr ⟨hl, by omega⟩)
  · intro k hk
    have h2 := hAB (g i.length)
    omega
  · rintro a k ⟨h1, h2⟩
    exact ⟨h1, by omega⟩
  · intro k hk
    omega

theorem Line.optional {F S : Nat} {p : Bytes → TRes α} (h : Line g F i (p i)) (hb : F + S ≤ budget) :
    Lines g F S i (Timed.optional i p) := by
  have hi : g (reach i) ≤ g i.length := Growth.mono (g := g) (reach_le i)
  have hF : F * g (reach i) ≤ F * g i.length := Nat.mul_le_mul_left _ hi
  have hl := h.lines (S := S) hb
  unfold Timed.optional
  refine ⟨Within.on (h.1.and hl.1) ?_ ?_ ?_, fun hs => Within.on (h.2 hs) ?_ ?_ ?_⟩
  · rintro ⟨r, v⟩ k _ ⟨_, hk⟩
    exact within_ok.mpr (by rw [Nat.zero_add]; exact hk)
  · rintro e k _ ⟨hk, _⟩
    exact within_ok.mpr (.inl ⟨rfl, by omega⟩)
  · rintro e k _ ⟨_, hk⟩
    exact within_abort.mpr (by omega)
  · rintro a k _ h
    exact h.elim
  · rintro e k _ hk
    exact within_ok.mpr ⟨rfl, by omega⟩
  · rintro e k _ hk
    exact within_abort.mpr (by omega)

theorem Line.many {F S : Nat} {p : Bytes → TRes α} (h : ∀ j, Line g F j (p j)) (hb : F + 1 + S ≤ budget) :
    ∀ n i, Lines g (F + 1) S i (manyLoop p n i)
  | 0, i => ⟨within_abort.mpr (Nat.zero_le _), fun _ => within_abort.mpr (Nat.zero_le _)⟩
  | n + 1, i => by
    have hi : g (reach i) ≤ g i.length := Growth.mono (g := g) (reach_le i)
    have hF : (F + 1) * g (reach i) ≤ (F + 1) * g i.length := Nat.mul_le_mul_left _ hi
    have e1 : ∀ n, (F + 1) * n = F * n + n := fun n => Nat.add_one_mul ..
    have hp := Growth.pos (g := g) (reach i)
    have hp' := Growth.pos (g := g) i.length
    have hl := (h i).lines (S := S + 1) (by omega)
    have hFp : F ≤ F * g i.length := Nat.le_mul_of_pos_right _ hp'
    unfold manyLoop
    refine ⟨within_tick.mpr (Within.on (((h i).1.and hl.1).and .self) ?_ ?_ ?_),
      fun hs => within_tick.mpr (Within.on ((h i).2 hs) ?_ ?_ ?_)⟩
    · rintro ⟨r, v⟩ k _ ⟨⟨⟨hl, hk⟩, hk'⟩, _⟩
      have hb' : (F + 1) * g i.length ≤ budget * g i.length := Nat.mul_le_mul_right _ (by omega)
      have hle := hl.le
      dsimp only at *
      have hr := Line.many h hb n r
      rcases hl.length with hw | hl
      · refine Within.bind (hr.2 hw) ?_ ?_
        · rintro ⟨s, w⟩ m _ ⟨hm1, hm⟩
          dsimp only at *
          subst hm1
          refine within_ok.mpr (.inr (.inl ⟨by dsimp only; omega, hw, ?_⟩))
          simp only [e1] at *
          omega
        · rintro m _ hm
          simp only [e1] at *
          omega
      · have h1 := Growth.add (g := g) hl
        have h2 : budget * (g (reach i) + g r.length + 1) ≤ budget * g i.length := Nat.mul_le_mul_left _ h1
        have h3 : (F + 1 + S) * g (reach i) ≤ budget * g (reach i) := Nat.mul_le_mul_right _ hb
        have h4 : (F + 1) * g r.length ≤ (F + 1) * g i.length := Nat.mul_le_mul_left _ (by omega)
        rw [Nat.mul_add, Nat.mul_add] at h2
        rw [Nat.add_mul] at h3
        refine Within.bind hr.1 ?_ ?_
        · rintro ⟨s, w⟩ m _ hm
          refine within_ok.mpr (.inr ?_)
          dsimp only at *
          rcases hm with ⟨rfl, hm⟩ | ⟨hl', hw, hm⟩ | ⟨hl', hm⟩
          · refine .inr ⟨by omega, ?_⟩
            simp only [e1] at *
            omega
          · refine .inl ⟨by omega, hw, ?_⟩
            simp only [e1] at *
            omega
          · refine .inr ⟨by omega, ?_⟩
            simp only [e1] at *
            omega
        · rintro m _ hm
          simp only [e1] at *
          omega
    · rintro e k _ ⟨⟨hk, _⟩, _⟩
      refine within_ok.mpr (.inl ⟨rfl, ?_⟩)
      rw [e1]
      omega
    · rintro e k _ ⟨⟨hk, _⟩, _⟩
      refine within_abort.mpr ?_
      rw [e1] at *
      omega
    · rintro a k _ h
      exact h.elim
    · rintro e k _ hk
      exact within_ok.mpr ⟨rfl, by omega⟩
    · rintro e k _ hk
      exact within_abort.mpr (by omega)

end EmailParser.Timed
