import Verif.Proofs.BorrowReasons
import Verif.Proofs.Sound.Fields
/-
Addresses and header fields without MIME: agreement with the model without ownership, and the reasons to copy.
-/
namespace EmailParser
open Spec HasStrings

variable {c : Cfg} {p : Place} {lo : Nat}

theorem infix_left {u v w : Bytes} (h : u <:+: v) : u <:+: v ++ w := h.trans ⟨[], w, by simp⟩

theorem infix_right {u v w : Bytes} (h : u <:+: w) : u <:+: v ++ w := h.trans ⟨v, [], by simp⟩

/-- A text is in a concatenation that has it as an element. -/
macro "infx" : tactic => `(tactic| repeat (first | exact List.infix_rfl | with_reducible exact infix_left List.infix_rfl | apply infix_right))

/-- The common case that the value does not depend on the text before. -/
theorem Alike.grow {α β : Type} {x : Res α} {y : Res β} {K : Bytes → β → α → Prop} (hK : Grows K) {i w : Bytes}
    (h : Alike x y (ReadsTo K i)) : Alike x y (ReadsTo (fun w' => K (w ++ w')) i) :=
  h.mono fun _ _ _ _ ⟨w', hw, h⟩ => ⟨w', hw, hK _ _ _ _ h ⟨w, [], by simp⟩⟩

theorem Alike.prefixed {α β : Type} {x : Bytes → Res α} {y : Bytes → Res β} {K : Bytes → β → α → Prop} (hK : Grows K)
    {i e : Bytes} (hi : Here p lo i) (h : ∀ i, Here p lo i → Alike (x i) (y i) (ReadsTo K i)) :
    Alike (prefixed i x e) (prefixed i y e) (ReadsTo K i) := by
  by_cases hs : startsWith i e = true
  · obtain ⟨r, rfl⟩ := startsWith_iff.mp hs
    simp only [EmailParser.prefixed, hs, if_true, getUncheckedFrom_append, ok_bind]
    refine (h r hi.right).mono ?_
    rintro r' v s - ⟨w, rfl, hk⟩
    exact ⟨e ++ w, by simp, hK _ _ _ _ hk ⟨e, [], by simp⟩⟩
  · simp only [EmailParser.prefixed, hs]
    rfl

/-- The same name, but the text is followed to the end of the line. -/
theorem Alike.headerLine {α β : Type} {x : Bytes → Res α} {y : Bytes → Res β} {K : Bytes → β → α → Prop} (hK : Grows K)
    {n n2 : Bytes} {m m' : String} (hn : n2 = n.map swapCase)
    (h : ∀ i, Here p lo i → Alike (x i) (y i) (ReadsTo K i)) {i : Bytes} (hi : Here p lo i) :
    Alike (EmailParser.headerLine n n2 m m' x i) (EmailParser.headerLine n n2 m m' y i) (ReadsTo K i) := by
  unfold EmailParser.headerLine
  refine Alike.next (Parses.reads (A := .none) (tagNoCase_parses m hn)) hi fun w r _ _ _ hr => ?_
  refine (h r hr).next hr fun w' r' v s hs hr' => ?_
  refine tag_reads.next hr' fun w'' r'' _ _ _ _ => .ok (.here (hK _ _ _ _ hs ?_))
  exact ⟨w, w'' ++ [], by simp⟩

theorem Alike.resent {α β : Type} {x : Bytes → Res α} {y : Bytes → Res β} {K : Bytes → β → α → Prop} (hK : Grows K)
    {m : String} (h : ∀ i, Here p lo i → Alike (x i) (y i) (ReadsTo K i)) {i : Bytes} (hi : Here p lo i) :
    Alike (EmailParser.resent m x i) (EmailParser.resent m y i) (ReadsTo K i) := by
  unfold EmailParser.resent
  refine Alike.next (Parses.reads (A := .none) (tagNoCase_parses m (by decide +kernel))) hi fun w r _ _ _ hr => ?_
  exact (h r hr).next hr fun w' r' v s hs hr' => .ok (.here (hK _ _ _ _ hs ⟨w, [], by simp⟩))

theorem Alike.mapValue {α β α' β' : Type} {x : Bytes → Res α} {y : Bytes → Res β} {K : Bytes → β → α → Prop}
    {K' : Bytes → β' → α' → Prop} {f : α → α'} {g : β → β'} {i : Bytes} (h : Alike (x i) (y i) (ReadsTo K i))
    (hf : ∀ w v s, K w v s → K' w (g v) (f s)) :
    Alike (EmailParser.mapValue f x i) (EmailParser.mapValue g y i) (ReadsTo K' i) := by
  unfold EmailParser.mapValue
  exact h.bind fun r v s _ ⟨w, hw, hs⟩ => .ok ⟨w, hw, hf _ _ _ hs⟩

/-- Another constructor around the same strings. -/
theorem Keeps.wrap {α β α' β' : Type} [HasStrings α β] [HasStrings α' β'] {f : α → α'} {g : β → β'} {w : Bytes} {v : β} {s : α}
    (h : Keeps p lo w v s) (hc : content p.memory (f s) = g (content p.memory s)) (hs : ∀ t ∈ strings (f s), t ∈ strings s) :
    Keeps p lo w (g v) (f s) := ⟨by rw [hc, h.1], fun t ht => h.2 t (hs t ht)⟩

theorem Keeps.nil {α β : Type} [HasStrings α β] {w : Bytes} : Keeps (α := List α) (β := List β) p lo w [] [] :=
  ⟨rfl, by intro t ht; cases ht⟩

theorem Keeps.none {α β : Type} [HasStrings α β] {w : Bytes} : Keeps (α := Option α) (β := Option β) p lo w none none :=
  ⟨rfl, by intro t ht; cases ht⟩

theorem Keeps.some {α β : Type} [HasStrings α β] {w : Bytes} {v : β} {s : α} (h : Keeps p lo w v s) :
    Keeps p lo w (some v) (some s) := ⟨congrArg Option.some h.1, h.2⟩

theorem Keeps.append {α β : Type} [HasStrings α β] {w : Bytes} {v v' : List β} {s s' : List α} (h : Keeps p lo w v s)
    (h' : Keeps p lo w v' s') : Keeps p lo w (v ++ v') (s ++ s') := by
  refine ⟨?_, fun t ht => ?_⟩
  · show List.map _ _ = _
    rw [List.map_append]
    exact congr (congrArg _ h.1) h'.1
  · have : t ∈ strings s ++ strings s' := by
      show t ∈ s.flatMap strings ++ s'.flatMap strings
      rw [← List.flatMap_append]
      exact ht
    exact (List.mem_append.mp this).elim (h.2 t) (h'.2 t)

theorem Alike.optKeeps {α β : Type} [HasStrings α β] {i : Bytes} {x : Bytes → Res α} {y : Bytes → Res β}
    (h : Alike (x i) (y i) (ReadsTo (Keeps p lo) i)) :
    Alike (EmailParser.optional i x) (EmailParser.optional i y) (ReadsTo (Keeps p lo) i) := by
  refine h.opt.mono ?_
  rintro r v s - ⟨w, hw, ⟨rfl, rfl, -⟩ | ⟨a, b, rfl, rfl, h⟩⟩
  · exact ⟨w, hw, .none⟩
  · exact ⟨w, hw, h.some⟩

theorem Alike.listWith {α β : Type} [HasStrings α β] {x : Bytes → Res α} {y : Bytes → Res β} {e : Bytes}
    (h : ∀ i, Here p lo i → Alike (x i) (y i) (ReadsTo (Keeps p lo) i)) {i : Bytes} (hi : Here p lo i) :
    Alike (do
        let (input, first) ← x i
        let (input, others) ← EmailParser.many input fun input => EmailParser.prefixed input x e
        (.ok (input, first :: others) : Res (List α)))
      (do
        let (input, first) ← y i
        let (input, others) ← EmailParser.many input fun input => EmailParser.prefixed input y e
        (.ok (input, first :: others) : Res (List β)))
      (ReadsTo (Keeps p lo) i) := by
  refine (h i hi).next hi fun w r v s hs hr => ?_
  refine (Alike.manyKeeps (fun i hi => Alike.prefixed keeps_grows hi h) hr).next hr fun w' r' vs ss hss _ => ?_
  exact .ok (.here ((hs.mono (by infx)).cons (hss.mono (by infx))))

/-- A constructor around the value on the left only. -/
theorem Alike.bind_left {α α' β : Type} {x : Res α} {y : Res β} {K : Bytes → β → α' → Prop} {f : α → α'} {i : Bytes}
    (h : Alike x y (ReadsTo (fun w v s => K w v (f s)) i)) : Alike (x >>= fun a => .ok (a.1, f a.2)) y (ReadsTo K i) := by
  unfold Alike at h
  split at h
  · exact h
  · exact h
  · exact h
  · exact h.elim

/-! ### Addresses -/

theorem Keeps.emailAddress {w v v' : Bytes} {s s' : CowStr} (h : Keeps p lo w v s) (h' : Keeps p lo w v' s') :
    Keeps p lo w (EmailAddress.mk v v') (CowEmailAddress.mk s s') :=
  (h.pair h').wrap (f := fun s : CowStr × CowStr => CowEmailAddress.mk s.1 s.2) (g := fun v => EmailAddress.mk v.1 v.2) rfl fun _ h => h

theorem cowEmailAddress_reads {i : Bytes} (hi : Here p lo i) :
    Alike (cowEmailAddress c p i) (addrSpec c i) (ReadsTo (Keeps p lo) i) := by
  have h : Alike (cowAddrSpec c p i) (addrSpec c i)
      (ReadsTo (fun w v s => Keeps p lo w v (CowEmailAddress.mk s.1 s.2)) i) := ?_
  · unfold cowEmailAddress
    exact h.bind_left
  unfold cowAddrSpec addrSpec
  refine (cowLocalPart_reads hi).next hi fun w r v s hs hr => ?_
  refine tag_reads.next hr fun w' r' _ _ _ hr' => ?_
  refine (cowDomain_reads hr').next hr' fun w'' r'' v' s' hs' _ => ?_
  refine .ok (.here ?_)
  show Keeps p lo (w ++ (w' ++ (w'' ++ []))) (EmailAddress.mk v v') (CowEmailAddress.mk s s')
  exact .emailAddress (hs.mono (by infx)) (hs'.mono (by infx))

theorem cowAngleAddr_reads {i : Bytes} (hi : Here p lo i) :
    Alike (cowAngleAddr c p i) (angleAddr c i) (ReadsTo (Keeps p lo) i) := by
  unfold cowAngleAddr angleAddr
  refine .skipCfws hi fun w1 r hr => ?_
  refine tag_reads.next hr fun w2 r _ _ _ hr => ?_
  refine (cowEmailAddress_reads hr).next hr fun w3 r v s hs hr => ?_
  refine tag_reads.next hr fun w4 r _ _ _ hr => ?_
  exact .skipCfws hr fun w5 r hr => .ok (.here (hs.mono (by infx)))

theorem Keeps.mailbox {w : Bytes} {v : Option (List Bytes)} {v' : EmailAddress} {s : Option (List CowStr)} {s' : CowEmailAddress}
    (h : Keeps p lo w v s) (h' : Keeps p lo w v' s') :
    Keeps p lo w (Mailbox.mk v v') (CowMailbox.mk s s') :=
  (h.pair h').wrap (f := fun s => CowMailbox.mk s.1 s.2) (g := fun v => Mailbox.mk v.1 v.2) rfl fun _ h => h

theorem cowNameAddr_reads {i : Bytes} (hi : Here p lo i) :
    Alike (cowNameAddr c p i) (nameAddr c i) (ReadsTo (Keeps p lo) i) := by
  unfold cowNameAddr nameAddr
  refine (Alike.optKeeps (cowPhrase_reads hi)).next hi fun w r v s hs hr => ?_
  refine (cowAngleAddr_reads hr).next hr fun w' r' v' s' hs' hr' => ?_
  exact .ok (.here (.mailbox (hs.mono (by infx)) (hs'.mono (by infx))))

theorem cowMailbox_reads {i : Bytes} (hi : Here p lo i) :
    Alike (cowMailbox c p i) (mailbox c i) (ReadsTo (Keeps p lo) i) := by
  refine .matchParsers (cowNameAddr_reads hi) (.matchParsers ?_ .matchNil)
  exact (cowEmailAddress_reads hi).next hi fun w r v s hs hr => .ok (.here (.mailbox .none (hs.mono (by infx))))

theorem cowMailboxList_reads {i : Bytes} (hi : Here p lo i) :
    Alike (cowMailboxList c p i) (mailboxList c i) (ReadsTo (Keeps p lo) i) := Alike.listWith (fun _ => cowMailbox_reads) hi

theorem Alike.cases {α β : Type} {x : Res α} {y : Res β} {R : Bytes → β → α → Prop} (h : Alike x y R) :
    (∃ r v s, x = .ok (r, s) ∧ y = .ok (r, v) ∧ R r v s) ∨ (∃ e, x = .err e ∧ y = .err e) ∨ ∃ k, x = .abort k ∧ y = .abort k := by
  unfold Alike at h
  split at h
  · obtain ⟨rfl, h⟩ := h
    exact .inl ⟨_, _, _, rfl, rfl, h⟩
  · exact .inr (.inl ⟨_, rfl, congrArg Outcome.err h.symm⟩)
  · exact .inr (.inr ⟨_, rfl, congrArg Outcome.abort h.symm⟩)
  · exact h.elim

theorem cowGroupList_reads {i : Bytes} (hi : Here p lo i) :
    Alike (cowGroupList c p i) (groupList c i) (ReadsTo (Keeps p lo) i) := by
  unfold cowGroupList groupList
  rcases (cowMailboxList_reads (c := c) hi).cases with ⟨r, v, s, h1, h2, h⟩ | ⟨e, h1, h2⟩ | ⟨k, h1, h2⟩ <;> rw [h1, h2]
  · exact .ok h
  · rcases (Parses.reads (cfws_parses (c := c)) (i := i)).cases with ⟨r, v, s, h1, -, w, hw, -⟩ | ⟨e, h1, -⟩ | ⟨k, h1, -⟩ <;>
      rw [h1]
    · exact .ok ⟨w, hw, .nil⟩
    · exact .ok (.here .nil)
    · rfl
  · rfl

theorem cowGroup_reads {i : Bytes} (hi : Here p lo i) :
    Alike (cowGroup c p i) (group c i) (ReadsTo (Keeps p lo) i) := by
  unfold cowGroup group
  refine (cowPhrase_reads hi).next hi fun w1 r v s hs hr => ?_
  refine tag_reads.next hr fun w2 r _ _ _ hr => ?_
  refine (cowGroupList_reads hr).next hr fun w3 r v' s' hs' hr => ?_
  refine tag_reads.next hr fun w4 r _ _ _ hr => ?_
  exact .skipCfws hr fun w5 r hr => .ok (.here ((hs.mono (by infx)).pair (hs'.mono (by infx))))

theorem cowAddress_reads {i : Bytes} (hi : Here p lo i) :
    Alike (cowAddress c p i) (address c i) (ReadsTo (Keeps p lo) i) := by
  unfold cowAddress address
  rcases (cowMailbox_reads (c := c) hi).cases with ⟨r, v, s, h1, h2, w, hw, h⟩ | ⟨e, h1, h2⟩ | ⟨k, h1, h2⟩ <;> rw [h1, h2]
  · exact .ok ⟨w, hw, h.wrap (f := CowAddress.mailbox) rfl fun _ h => h⟩
  · rcases (cowGroup_reads (c := c) hi).cases with ⟨r, v, s, h1, h2, w, hw, h⟩ | ⟨e, h1, h2⟩ | ⟨k, h1, h2⟩ <;> rw [h1, h2]
    · exact .ok ⟨w, hw, h.wrap (f := fun s => CowAddress.group s.1 s.2) (g := fun v => Address.group v.1 v.2) rfl fun _ h => h⟩
    · rfl
    · rfl
  · rfl

theorem cowAddressList_reads {i : Bytes} (hi : Here p lo i) :
    Alike (cowAddressList c p i) (addressList c i) (ReadsTo (Keeps p lo) i) := Alike.listWith (fun _ => cowAddress_reads) hi

/-! ### Values of header fields -/

theorem cowBccValue_reads {i : Bytes} (hi : Here p lo i) :
    Alike (cowBccValue c p i) (bccValue c i) (ReadsTo (Keeps p lo) i) := by
  unfold cowBccValue bccValue
  rcases (cowAddressList_reads (c := c) hi).cases with ⟨r, v, s, h1, h2, h⟩ | ⟨e, h1, h2⟩ | ⟨k, h1, h2⟩ <;> rw [h1, h2]
  · exact .ok h
  · rcases (Parses.reads (cfws_parses (c := c)) (i := i)).cases with ⟨r, v, s, h1, -, w, hw, -⟩ | ⟨e, h1, -⟩ | ⟨k, h1, -⟩ <;>
      rw [h1]
    · exact .ok ⟨w, hw, .nil⟩
    · rfl
    · rfl
  · rfl

theorem cowMessageIds_reads {i : Bytes} (hi : Here p lo i) :
    Alike (cowMessageIds c p i) (messageIds c i) (ReadsTo (Keeps p lo) i) := Alike.many1 (fun _ => cowMessageId_reads) hi

theorem cowTextValue_reads {i : Bytes} (hi : Here p lo i) :
    Alike (cowTextValue c p i) (textValue c i) (ReadsTo (Keeps p lo) i) := by
  unfold cowTextValue textValue
  split
  · exact cowMimeUnstructured_reads hi
  · exact cowUnstructured_reads hi

theorem cowUnknownValue_reads {i : Bytes} (hi : Here p lo i) :
    Alike (cowUnknownValue c p i) (unknownValue c i) (ReadsTo (Keeps p lo) i) := by
  unfold cowUnknownValue unknownValue
  split
  · exact cowMimeUnstructured_reads hi
  · exact cowUnstructured_reads hi

theorem cowKeywordList_reads {i : Bytes} (hi : Here p lo i) :
    Alike (cowKeywordList c p i) (keywordList c i) (ReadsTo (Keeps p lo) i) := Alike.listWith (fun _ => cowPhrase_reads) hi

theorem emptyPath_reads {i : Bytes} (hi : Here p lo i) :
    Alike (emptyPath c i) (emptyPath c i) (ReadsTo (Keeps p lo) i) := by
  unfold emptyPath
  refine .skipCfws hi fun w1 r hr => ?_
  refine tag_reads.next hr fun w2 r _ _ _ hr => ?_
  refine .skipCfws hr fun w3 r hr => ?_
  refine tag_reads.next hr fun w4 r _ _ _ hr => ?_
  exact .skipCfws hr fun w5 r hr => .ok (.here ⟨rfl, by intro t ht; cases ht⟩)

theorem cowReturnPathValue_reads {i : Bytes} (hi : Here p lo i) :
    Alike (cowReturnPathValue c p i) (returnPathValue c i) (ReadsTo (Keeps p lo) i) := by
  refine .matchParsers ?_ (.matchParsers ?_ .matchNil)
  · exact (cowAngleAddr_reads hi).next hi fun w r v s hs hr => .ok (.here (hs.mono (by infx)).some)
  · exact (emptyPath_reads hi).next hi fun w r v s hs hr => .ok (.here .none)

theorem cowReceivedToken_reads {i : Bytes} (hi : Here p lo i) :
    Alike (cowReceivedToken c p i) (receivedToken c i) (ReadsTo (Keeps p lo) i) := by
  have hw : ∀ {w v s}, Keeps p lo w v s → Keeps p lo w (ReceivedToken.word v) (CowReceivedToken.word s) :=
    fun h => h.wrap (f := CowReceivedToken.word) rfl fun _ h => h
  have ha : ∀ {w v s}, Keeps p lo w v s → Keeps p lo w (ReceivedToken.addr v) (CowReceivedToken.addr s) :=
    fun h => h.wrap (f := CowReceivedToken.addr) rfl fun _ h => h
  have hd : ∀ {w v s}, Keeps p lo w v s → Keeps p lo w (ReceivedToken.domain v) (CowReceivedToken.domain s) :=
    fun h => h.wrap (f := CowReceivedToken.domain) rfl fun _ h => h
  have hdom := (cowDomain_reads (c := c) hi).cases
  unfold cowReceivedToken receivedToken
  rcases (cowWord_reads (c := c) hi).cases with ⟨r, v, s, h1, h2, w, e, h⟩ | ⟨e, h1, h2⟩ | ⟨k, h1, h2⟩ <;> rw [h1, h2]
  · rcases hdom with ⟨r', v', s', h1, h2, w', e', h'⟩ | ⟨_, h1, h2⟩ | ⟨k, h1, h2⟩ <;> rw [h1, h2]
    · dsimp only
      have h1 : s.content p.memory = v := h.1
      have h2 : s'.content p.memory = v' := h'.1
      rw [h1, h2]
      by_cases hl : v'.length > v.length
      · rw [if_pos hl, if_pos hl]
        exact .ok ⟨w', e', hd h'⟩
      · rw [if_neg hl, if_neg hl]
        exact .ok ⟨w, e, hw h⟩
    · exact .ok ⟨w, e, hw h⟩
    · rfl
  · dsimp only
    rcases (cowAngleAddr_reads (c := c) hi).cases with ⟨r, v, s, h1, h2, w, e, h⟩ | ⟨e, h1, h2⟩ | ⟨k, h1, h2⟩ <;> rw [h1, h2]
    · exact .ok ⟨w, e, ha h⟩
    · dsimp only
      rcases (cowEmailAddress_reads (c := c) hi).cases with ⟨r, v, s, h1, h2, w, e, h⟩ | ⟨e, h1, h2⟩ | ⟨k, h1, h2⟩ <;> rw [h1, h2]
      · exact .ok ⟨w, e, ha h⟩
      · rcases hdom with ⟨r, v, s, h1, h2, w, e, h⟩ | ⟨e, h1, h2⟩ | ⟨k, h1, h2⟩ <;> rw [h1, h2]
        · exact .ok ⟨w, e, hd h⟩
        · rfl
        · rfl
      · rfl
    · rfl
  · rfl

/-- A date has no strings. -/
theorem Keeps.date {w : Bytes} {v : DateTime} : Keeps p lo w v v := ⟨rfl, by intro t ht; cases ht⟩

theorem cowReceivedValue_reads {i : Bytes} (hi : Here p lo i) :
    Alike (cowReceivedValue c p i) (receivedValue c i) (ReadsTo (Keeps p lo) i) := by
  unfold cowReceivedValue receivedValue
  refine (Alike.manyKeeps (fun _ => cowReceivedToken_reads) hi).next hi fun w1 r v s hs hr => ?_
  refine tag_reads.next hr fun w2 r _ _ _ hr => ?_
  refine (Parses.reads dateTime_parses).next hr fun w3 r v' s' hs' hr => ?_
  subst hs'
  exact .ok (.here ((hs.mono (by infx)).pair .date))

theorem cowReturnPath_reads {i : Bytes} (hi : Here p lo i) :
    Alike (cowReturnPath c p i) (returnPath c i) (ReadsTo (Keeps p lo) i) :=
  Alike.headerLine keeps_grows (by decide +kernel) (fun _ => cowReturnPathValue_reads) hi

theorem cowReceived_reads {i : Bytes} (hi : Here p lo i) :
    Alike (cowReceived c p i) (received c i) (ReadsTo (Keeps p lo) i) :=
  Alike.headerLine keeps_grows (by decide +kernel) (fun _ => cowReceivedValue_reads) hi

theorem cowTrace_reads {i : Bytes} (hi : Here p lo i) : Alike (cowTrace c p i) (trace c i) (ReadsTo (Keeps p lo) i) := by
  unfold cowTrace trace
  refine (Alike.optKeeps (cowReturnPath_reads hi)).next hi fun w1 r v s hs hr => ?_
  refine (Alike.many1 (fun _ => cowReceived_reads) hr).next hr fun w2 r v' s' hs' hr => ?_
  exact .ok (.here ((hs.mono (by infx)).pair (hs'.mono (by infx))))

theorem cowUnknown_reads {i : Bytes} (hi : Here p lo i) : Alike (cowUnknown c p i) (unknown c i) (ReadsTo (Keeps p lo) i) := by
  unfold cowUnknown unknown
  have h1 : Alike (takeWhile1 i isFtext) (takeWhile1 i isFtext) (ReadsTo (fun w v s => s = v ∧ w = v) i) :=
    .same _ fun r v h => by
      obtain ⟨h, -, -⟩ := takeWhile1_split h
      exact ⟨v, h, rfl, rfl⟩
  refine h1.bind ?_
  rintro r v s - ⟨w, rfl, rfl, rfl⟩
  have hr := hi.right
  have key : Keeps p lo w w (p.slice (w ++ r) w) := keeps_slice (u := []) hi
  dsimp only
  suffices h : Alike _ _ (ReadsTo (fun w' => Keeps p lo (w ++ w')) r) from h.mono (R := ReadsTo (fun w' => Keeps p lo (w ++ w')) r)
    fun _ _ _ _ ⟨w', e, h⟩ => ⟨w ++ w', by simp [e], h⟩
  refine tag_reads.next hr fun w2 r _ _ _ hr => ?_
  refine (cowUnknownValue_reads hr).next hr fun w3 r v' s' hs' hr => ?_
  exact tag_reads.next hr fun w4 r _ _ _ hr => .ok (.here ((key.mono (by infx)).pair (hs'.mono (by infx))))

end EmailParser
