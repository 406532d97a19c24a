import Verif.Model.Timed
/-
Every function of `Model/Timed.lean` has the same outcome as the function it copies.
-/
namespace EmailParser.Timed

variable {α β γ : Type} {c : Cfg}

@[simp] theorem ok_out (a : α) : (ok a).out = .ok a := rfl
@[simp] theorem err_out (e : Error) : (err e : Timed α).out = .err e := rfl
@[simp] theorem abort_out (k : Abort) : (abort k : Timed α).out = .abort k := rfl
@[simp] theorem lift_out (x : Outcome α) : (lift x).out = x := rfl
@[simp] theorem tick_out (n : Nat) : (tick n).out = .ok () := rfl
@[simp] theorem on_out (x : Timed α) (f : Outcome α → Timed β) : (x.on f).out = (f x.out).out := rfl
@[simp] theorem mapErr_out (x : Timed α) (e : Error) : (x.mapErr e).out = x.out.mapErr e := rfl

theorem bind_out (x : Timed α) (f : α → Timed β) :
    (x >>= f).out = x.out >>= fun a => (f a).out := by
  show (x.bind f).out = x.out.bind _
  unfold bind Outcome.bind
  rw [on_out]
  cases x.out <;> rfl

theorem bind_of {x : Timed α} {y : Outcome α} {f : α → Timed β} {g : α → Outcome β}
    (hx : x.out = y) (hf : ∀ a, (f a).out = g a) : (x >>= f).out = y >>= g := by
  rw [bind_out, hx]
  congr 1
  funext a
  exact hf a

theorem tick_of {n : Nat} {f : Timed β} {y : Outcome β} (h : f.out = y) :
    (tick n >>= fun _ => f).out = y := by
  rw [bind_out, tick_out]
  exact h

theorem on_of {x : Timed α} {y : Outcome α} {f : Outcome α → Timed β} {z : Outcome β}
    (hx : x.out = y) (hf : (f y).out = z) : (x.on f).out = z := by
  rw [on_out, hx]
  exact hf

theorem ite_of {p : Prop} [Decidable p] {x y : Timed α} {a b : Outcome α} (h1 : x.out = a)
    (h2 : y.out = b) : (if p then x else y).out = if p then a else b := by
  split <;> assumption

@[simp] theorem digit_out (i : Bytes) : (digit i).out = EmailParser.digit i := by
  unfold digit EmailParser.digit
  refine tick_of ?_
  cases i
  · rfl
  · exact ite_of rfl rfl

@[simp] theorem twoDigits_out (i : Bytes) : (twoDigits i).out = EmailParser.twoDigits i :=
  bind_of (digit_out _) fun _ => bind_of (digit_out _) fun _ => bind_of (rfl) fun _ => bind_of (rfl) fun _ => rfl

@[simp] theorem tag_out (i e : Bytes) (m : String) : (tag i e m).out = EmailParser.tag i e m := tick_of (ite_of (bind_of rfl fun _ => rfl) rfl)

@[simp] theorem tagNoCaseLoop_out (i e e2 : Bytes) (m : String) (n : Nat) : ∀ idx,
    (tagNoCaseLoop i e e2 m idx n).out = EmailParser.tagNoCaseLoop i e e2 m idx n := by
  induction n with
  | zero => intro idx; rfl
  | succ n ih =>
    intro idx
    exact tick_of (bind_of rfl fun _ => bind_of rfl fun _ => bind_of rfl fun _ => ite_of rfl (ih _))

@[simp] theorem tagNoCase_out (i e e2 : Bytes) (m : String) :
    (tagNoCase i e e2 m).out = EmailParser.tagNoCase i e e2 m :=
  tick_of (ite_of (ite_of rfl (bind_of (tagNoCaseLoop_out ..) fun _ => bind_of rfl fun _ => rfl)) rfl)

/-- Two copies of a parser with the same outcomes. -/
def Same (p : Bytes → TRes α) (q : Bytes → Res α) : Prop := ∀ i, (p i).out = q i

theorem optional_of {p : Bytes → TRes α} {q : Bytes → Res α} (h : Same p q) (i : Bytes) :
    (optional i p).out = EmailParser.optional i q := by
  unfold optional EmailParser.optional
  refine on_of (h i) ?_
  cases q i <;> rfl

/-- Lists of copies. -/
inductive SameAll : List (Bytes → TRes α) → List (Bytes → Res α) → Prop
  | nil : SameAll [] []
  | cons {p q ps qs} : Same p q → SameAll ps qs → SameAll (p :: ps) (q :: qs)

theorem SameAll.append {ps ps' : List (Bytes → TRes α)} {qs qs' : List (Bytes → Res α)}
    (h : SameAll ps qs) (h' : SameAll ps' qs') : SameAll (ps ++ ps') (qs ++ qs') := by
  induction h with
  | nil => exact h'
  | cons h _ ih => exact .cons h ih

theorem matchParsers_of {ps : List (Bytes → TRes α)} {qs : List (Bytes → Res α)}
    (h : SameAll ps qs) (i : Bytes) :
    (matchParsers i ps).out = EmailParser.matchParsers i qs := by
  induction h with
  | nil => rfl
  | @cons p q ps qs h _ ih =>
    unfold matchParsers EmailParser.matchParsers
    refine on_of (h i) ?_
    cases q i
    · rfl
    · exact ih
    · rfl

@[simp] theorem takeWhile_out (i : Bytes) (p : UInt8 → Bool) :
    (takeWhile i p).out = EmailParser.takeWhile i p := by
  unfold takeWhile EmailParser.takeWhile
  refine tick_of ?_
  cases firstFailing p 0 i
  · rfl
  · exact bind_of rfl fun _ => bind_of rfl fun _ => rfl

@[simp] theorem takeWhile1_out (i : Bytes) (p : UInt8 → Bool) :
    (takeWhile1 i p).out = EmailParser.takeWhile1 i p := by
  unfold takeWhile1 EmailParser.takeWhile1
  refine tick_of ?_
  cases i with
  | nil => rfl
  | cons x t =>
    refine ite_of rfl ?_
    cases firstFailing p 1 t
    · rfl
    · exact bind_of rfl fun _ => bind_of rfl fun _ => rfl

theorem ignoreManyLoop_of {p : Bytes → TRes α} {q : Bytes → Res α} (h : Same p q) (n : Nat) :
    ∀ i, (ignoreManyLoop p n i).out = EmailParser.ignoreManyLoop q n i := by
  induction n with
  | zero => intro i; rfl
  | succ n ih =>
    intro i
    unfold ignoreManyLoop EmailParser.ignoreManyLoop
    refine tick_of (on_of (h i) ?_)
    cases q i
    · exact ih _
    · rfl
    · rfl

theorem ignoreMany_of {p : Bytes → TRes α} {q : Bytes → Res α} (h : Same p q) (i : Bytes) :
    (ignoreMany i p).out = EmailParser.ignoreMany i q := ignoreManyLoop_of h _ _

theorem manyLoop_of {p : Bytes → TRes α} {q : Bytes → Res α} (h : Same p q) (n : Nat) :
    ∀ i, (manyLoop p n i).out = EmailParser.manyLoop q n i := by
  induction n with
  | zero => intro i; rfl
  | succ n ih =>
    intro i
    unfold manyLoop EmailParser.manyLoop
    refine tick_of (on_of (h i) ?_)
    cases q i
    · exact bind_of (ih _) fun _ => rfl
    · rfl
    · rfl

theorem many_of {p : Bytes → TRes α} {q : Bytes → Res α} (h : Same p q) (i : Bytes) :
    (many i p).out = EmailParser.many i q := manyLoop_of h _ _

theorem many1_of {p : Bytes → TRes α} {q : Bytes → Res α} (h : Same p q) (i : Bytes) :
    (many1 i p).out = EmailParser.many1 i q :=
  bind_of (h i) fun _ => bind_of (manyLoop_of h _ _) fun _ => rfl

theorem collectManyLoop_of {p : Bytes → TRes Bytes} {q : Bytes → Res Bytes} (h : Same p q)
    (n : Nat) : ∀ i, (collectManyLoop p n i).out = EmailParser.collectManyLoop q n i := by
  induction n with
  | zero => intro i; rfl
  | succ n ih =>
    intro i
    unfold collectManyLoop EmailParser.collectManyLoop
    refine tick_of (on_of (h i) ?_)
    cases q i
    · exact bind_of (ih _) fun _ => rfl
    · rfl
    · rfl

theorem collectMany_of {p : Bytes → TRes Bytes} {q : Bytes → Res Bytes} (h : Same p q) (i : Bytes) :
    (collectMany i p).out = EmailParser.collectMany i q := collectManyLoop_of h _ _

theorem pair_of {p : Bytes → TRes α} {q : Bytes → Res α} {p' : Bytes → TRes β} {q' : Bytes → Res β}
    (h : Same p q) (h' : Same p' q') (i : Bytes) :
    (pair i p p').out = EmailParser.pair i q q' :=
  bind_of (h i) fun _ => bind_of (h' _) fun _ => rfl

theorem triplet_of {p : Bytes → TRes α} {q : Bytes → Res α} {p' : Bytes → TRes β}
    {q' : Bytes → Res β} {p2 : Bytes → TRes γ} {q2 : Bytes → Res γ}
    (h : Same p q) (h' : Same p' q') (h2 : Same p2 q2) (i : Bytes) :
    (triplet i p p' p2).out = EmailParser.triplet i q q' q2 :=
  bind_of (h i) fun _ => bind_of (h' _) fun _ => bind_of (h2 _) fun _ => rfl

theorem collectPair_of {p : Bytes → TRes Bytes} {q : Bytes → Res Bytes} {p' : Bytes → TRes Bytes}
    {q' : Bytes → Res Bytes} (h : Same p q) (h' : Same p' q') (i : Bytes) :
    (collectPair i p p').out = EmailParser.collectPair i q q' :=
  bind_of (h i) fun _ => bind_of (h' _) fun _ => rfl

theorem prefixed_of {p : Bytes → TRes α} {q : Bytes → Res α} (h : Same p q) (i pre : Bytes) :
    (prefixed i p pre).out = EmailParser.prefixed i q pre := by
  unfold prefixed EmailParser.prefixed
  exact tick_of (ite_of (bind_of rfl fun _ => h _) rfl)

@[simp] theorem fws_out (i : Bytes) : (fws i).out = EmailParser.fws i := by
  unfold fws EmailParser.fws
  refine bind_of (optional_of (fun i => pair_of (fun _ => takeWhile_out ..) (fun _ => tag_out ..) i) i) ?_
  rintro ⟨i, v⟩
  refine bind_of (takeWhile1_out ..) ?_
  rintro ⟨i, w⟩
  cases v <;> rfl

@[simp] theorem optionalFws_out (i : Bytes) : (optional i fws).out = EmailParser.optional i EmailParser.fws :=
  optional_of fws_out i

@[simp] theorem fwsOrEmpty_out (i : Bytes) : (fwsOrEmpty i).out = EmailParser.fwsOrEmpty i := by
  unfold fwsOrEmpty EmailParser.fwsOrEmpty
  refine on_of (fws_out i) ?_
  cases EmailParser.fws i <;> rfl

@[simp] theorem quotedPair_out (i : Bytes) : (quotedPair i).out = EmailParser.quotedPair i := by
  unfold quotedPair EmailParser.quotedPair
  refine bind_of (tag_out ..) ?_
  rintro ⟨i, v⟩
  refine tick_of ?_
  cases i
  · rfl
  · exact ite_of (bind_of rfl fun _ => bind_of rfl fun _ => rfl) rfl

theorem ccontent_of {p : Bytes → TRes Bytes} {q : Bytes → Res Bytes} (h : Same p q) (i : Bytes) :
    (ccontent p i).out = EmailParser.ccontent q i :=
  matchParsers_of (.cons (fun _ => bind_of (takeWhile1_out ..) fun _ => rfl)
    (.cons quotedPair_out (.cons h .nil))) i

@[simp] theorem comment_out (n : Nat) : ∀ i, (comment n i).out = EmailParser.comment n i := by
  induction n with
  | zero => intro i; exact bind_of (tag_out ..) fun _ => rfl
  | succ n ih =>
    intro i
    exact bind_of (tag_out ..) fun _ =>
      bind_of (ignoreMany_of (fun i => pair_of optionalFws_out (ccontent_of ih) i) _)
        fun _ => bind_of (optionalFws_out _) fun _ => bind_of (tag_out ..) fun _ => rfl

@[simp] theorem realCfwsLoop_out (n : Nat) : ∀ i,
    (realCfwsLoop c n i).out = EmailParser.realCfwsLoop c n i := by
  induction n with
  | zero => intro i; rfl
  | succ n ih =>
    intro i
    refine tick_of (bind_of (optionalFws_out _) ?_)
    rintro ⟨i', v⟩
    dsimp only
    refine on_of (comment_out ..) ?_
    cases EmailParser.comment c.stack i'
    · exact bind_of (ih _) fun _ => rfl
    · rfl
    · rfl

@[simp] theorem realCfws_out (i : Bytes) : (realCfws c i).out = EmailParser.realCfws c i := by
  refine bind_of (optionalFws_out _) ?_
  rintro ⟨i', v⟩
  dsimp only
  refine on_of (comment_out ..) ?_
  cases EmailParser.comment c.stack i'
  · exact bind_of (realCfwsLoop_out ..) fun _ => bind_of (optionalFws_out _) fun _ => rfl
  · rfl
  · rfl

@[simp] theorem cfws_out (i : Bytes) : (cfws c i).out = EmailParser.cfws c i :=
  matchParsers_of (.cons realCfws_out (.cons fws_out .nil)) i

@[simp] theorem skipCfws_out (i : Bytes) : (skipCfws c i).out = EmailParser.skipCfws c i := by
  refine on_of (cfws_out i) ?_
  unfold EmailParser.skipCfws
  cases EmailParser.cfws c i <;> rfl

@[simp] theorem quotedStringLoop_out (n : Nat) : ∀ i,
    (quotedStringLoop n i).out = EmailParser.quotedStringLoop n i := by
  induction n with
  | zero => intro i; rfl
  | succ n ih =>
    intro i
    refine tick_of (bind_of (fwsOrEmpty_out _) ?_)
    rintro ⟨i', v⟩
    dsimp only
    refine on_of (takeWhile1_out ..) ?_
    cases EmailParser.takeWhile1 i' isQtext
    · exact bind_of (ih _) fun _ => rfl
    · refine on_of (quotedPair_out _) ?_
      cases EmailParser.quotedPair i'
      · exact bind_of (ih _) fun _ => rfl
      · rfl
      · rfl
    · rfl

@[simp] theorem quotedString_out (i : Bytes) : (quotedString c i).out = EmailParser.quotedString c i :=
  bind_of (skipCfws_out _) fun _ => tick_of (ite_of (bind_of rfl fun _ =>
    bind_of (quotedStringLoop_out ..) fun _ => bind_of (fwsOrEmpty_out _) fun _ =>
    tick_of (ite_of (bind_of rfl fun _ => bind_of (skipCfws_out _) fun _ => rfl) rfl)) rfl)

@[simp] theorem charset_out (i : Bytes) : (charset i).out = EmailParser.charset i :=
  bind_of (takeWhile1_out ..) fun _ => rfl

@[simp] theorem encoding_out (i : Bytes) : (encoding i).out = EmailParser.encoding i :=
  bind_of (takeWhile1_out ..) fun _ => rfl

@[simp] theorem encodedText_out (i : Bytes) : (encodedText i).out = EmailParser.encodedText i :=
  takeWhile1_out ..

@[simp] theorem encodedWord_out (i : Bytes) : (encodedWord c i).out = EmailParser.encodedWord c i :=
  bind_of (tag_out ..) fun _ => bind_of (charset_out _) fun _ =>
    bind_of (optional_of (fun i => pair_of (fun _ => tag_out ..) encoding_out i) _) fun _ =>
    bind_of (tag_out ..) fun _ => bind_of (encoding_out _) fun _ => bind_of (tag_out ..) fun _ =>
    bind_of (encodedText_out _) fun _ => bind_of (tag_out ..) fun _ => bind_of rfl fun _ => rfl

@[simp] theorem atom_out (i : Bytes) : (atom c i).out = EmailParser.atom c i :=
  bind_of (skipCfws_out _) fun _ => bind_of (congrArg (Outcome.mapErr · _) (takeWhile1_out ..)) fun _ => bind_of (skipCfws_out _) fun _ => rfl

@[simp] theorem dotAtomTextLoop_out (n : Nat) : ∀ i,
    (dotAtomTextLoop c n i).out = EmailParser.dotAtomTextLoop c n i := by
  induction n with
  | zero => intro i; rfl
  | succ n ih =>
    intro i
    refine tick_of (ite_of (bind_of rfl fun t => ?_) rfl)
    refine on_of (ite_of (takeWhile_out ..) (takeWhile1_out ..)) ?_
    cases (if c.feat.compatibilityFixes = true then EmailParser.takeWhile t isAtext
      else EmailParser.takeWhile1 t isAtext)
    · exact bind_of rfl fun _ => bind_of (ih _) fun _ => rfl
    · rfl
    · rfl

@[simp] theorem dotAtomText_out (i : Bytes) : (dotAtomText c i).out = EmailParser.dotAtomText c i :=
  bind_of (takeWhile1_out ..) fun _ => bind_of (dotAtomTextLoop_out ..) fun _ => rfl

@[simp] theorem dotAtom_out (i : Bytes) : (dotAtom c i).out = EmailParser.dotAtom c i :=
  bind_of (skipCfws_out _) fun _ => bind_of (dotAtomText_out _) fun _ => bind_of (skipCfws_out _) fun _ => rfl

@[simp] theorem word_out (i : Bytes) : (word c i).out = EmailParser.word c i :=
  matchParsers_of (.cons atom_out (.cons quotedString_out .nil)) i

@[simp] theorem phraseWord_out (i : Bytes) : (phraseWord c i).out = EmailParser.phraseWord c i := by
  unfold phraseWord EmailParser.phraseWord
  exact ite_of (matchParsers_of (.cons (fun i => bind_of (optionalFws_out _) fun _ => encodedWord_out _)
    (.cons word_out .nil)) i) (word_out i)

@[simp] theorem phrase_out (i : Bytes) : (phrase c i).out = EmailParser.phrase c i :=
  many1_of phraseWord_out i

@[simp] theorem dropWsp_out (i : Bytes) : (dropWsp i).out = EmailParser.dropWsp i :=
  ignoreMany_of (fun _ => takeWhile1_out ..) i

@[simp] theorem unstructured_out (i : Bytes) : (unstructured i).out = EmailParser.unstructured i :=
  bind_of (collectMany_of (fun i => collectPair_of fwsOrEmpty_out
    (fun _ => bind_of (takeWhile1_out ..) fun _ => rfl) i) _) fun _ =>
    bind_of (dropWsp_out _) fun _ => rfl

@[simp] theorem mimeUnstructuredLoop_out (n : Nat) : ∀ b i,
    (mimeUnstructuredLoop c n b i).out = EmailParser.mimeUnstructuredLoop c n b i := by
  induction n with
  | zero => intro b i; rfl
  | succ n ih =>
    intro b i
    refine tick_of (bind_of (fwsOrEmpty_out _) ?_)
    rintro ⟨i', v⟩
    dsimp only
    refine on_of (encodedWord_out _) ?_
    cases EmailParser.encodedWord c i'
    · exact bind_of (ih _ _) fun _ => rfl
    · refine on_of (takeWhile1_out ..) ?_
      cases EmailParser.takeWhile1 i' isVchar
      · exact bind_of (ih _ _) fun _ => rfl
      · rfl
      · rfl
    · rfl

@[simp] theorem mimeUnstructured_out (i : Bytes) :
    (mimeUnstructured c i).out = EmailParser.mimeUnstructured c i :=
  bind_of (mimeUnstructuredLoop_out ..) fun _ => bind_of (dropWsp_out _) fun _ => rfl

theorem headerLine_of {p : Bytes → TRes α} {q : Bytes → Res α} {a b : Bytes} {s t : String}
    (h : Same p q) (i : Bytes) : (headerLine a b s t p i).out = EmailParser.headerLine a b s t q i :=
  bind_of (tagNoCase_out ..) fun _ => bind_of (h _) fun _ => bind_of (tag_out ..) fun _ => rfl

@[simp] theorem noFoldLitteral_out (i : Bytes) : (noFoldLitteral i).out = EmailParser.noFoldLitteral i :=
  bind_of (tag_out ..) fun _ => bind_of (takeWhile_out ..) fun _ => bind_of (tag_out ..) fun _ => rfl

@[simp] theorem messageId_out (i : Bytes) : (messageId c i).out = EmailParser.messageId c i :=
  bind_of (skipCfws_out _) fun _ => bind_of (tag_out ..) fun _ => bind_of (dotAtomText_out _) fun _ =>
    bind_of (tag_out ..) fun _ =>
    bind_of (matchParsers_of (.cons dotAtomText_out (.cons noFoldLitteral_out .nil)) _) fun _ =>
    bind_of (tag_out ..) fun _ => bind_of (skipCfws_out _) fun _ => rfl

@[simp] theorem domainLiteralLoop_out (n : Nat) : ∀ i,
    (domainLiteralLoop n i).out = EmailParser.domainLiteralLoop n i := by
  induction n with
  | zero => intro i; rfl
  | succ n ih =>
    intro i
    refine tick_of (bind_of (optionalFws_out _) ?_)
    rintro ⟨i', v⟩
    dsimp only
    refine on_of (takeWhile1_out ..) ?_
    cases EmailParser.takeWhile1 i' isDtext
    · exact bind_of (ih _) fun _ => rfl
    · rfl
    · rfl

@[simp] theorem domainLiteral_out (i : Bytes) : (domainLiteral c i).out = EmailParser.domainLiteral c i :=
  bind_of (skipCfws_out _) fun _ => bind_of (tag_out ..) fun _ => bind_of (domainLiteralLoop_out ..) fun _ => bind_of (optionalFws_out _) fun _ => bind_of (tag_out ..) fun _ => bind_of (skipCfws_out _) fun _ => rfl

@[simp] theorem localPart_out (i : Bytes) : (localPart c i).out = EmailParser.localPart c i :=
  matchParsers_of (.cons dotAtom_out (.cons quotedString_out .nil)) i

@[simp] theorem domain_out (i : Bytes) : (domain c i).out = EmailParser.domain c i :=
  matchParsers_of (.cons dotAtom_out (.cons domainLiteral_out .nil)) i

@[simp] theorem addrSpec_out (i : Bytes) : (addrSpec c i).out = EmailParser.addrSpec c i :=
  bind_of (localPart_out _) fun _ => bind_of (tag_out ..) fun _ => bind_of (domain_out _) fun _ => rfl

@[simp] theorem angleAddr_out (i : Bytes) : (angleAddr c i).out = EmailParser.angleAddr c i :=
  bind_of (skipCfws_out _) fun _ => bind_of (tag_out ..) fun _ => bind_of (addrSpec_out _) fun _ => bind_of (tag_out ..) fun _ => bind_of (skipCfws_out _) fun _ => rfl

@[simp] theorem nameAddr_out (i : Bytes) : (nameAddr c i).out = EmailParser.nameAddr c i :=
  bind_of (optional_of phrase_out _) fun _ => bind_of (angleAddr_out _) fun _ => rfl

@[simp] theorem mailbox_out (i : Bytes) : (mailbox c i).out = EmailParser.mailbox c i :=
  matchParsers_of (.cons nameAddr_out (.cons (fun i => bind_of (addrSpec_out i) fun _ => rfl) .nil)) i

@[simp] theorem mailboxList_out (i : Bytes) : (mailboxList c i).out = EmailParser.mailboxList c i :=
  bind_of (mailbox_out i) fun _ => bind_of (many_of (fun i => prefixed_of mailbox_out i _) _) fun _ => rfl

@[simp] theorem groupList_out (i : Bytes) : (groupList c i).out = EmailParser.groupList c i := by
  unfold groupList EmailParser.groupList
  refine on_of (mailboxList_out _) ?_
  cases EmailParser.mailboxList c i
  · rfl
  · refine on_of (cfws_out _) ?_
    cases EmailParser.cfws c i <;> rfl
  · rfl

@[simp] theorem group_out (i : Bytes) : (group c i).out = EmailParser.group c i :=
  bind_of (phrase_out _) fun _ => bind_of (tag_out ..) fun _ => bind_of (groupList_out _) fun _ => bind_of (tag_out ..) fun _ => bind_of (skipCfws_out _) fun _ => rfl

@[simp] theorem address_out (i : Bytes) : (address c i).out = EmailParser.address c i := by
  unfold address EmailParser.address
  refine on_of (mailbox_out _) ?_
  cases EmailParser.mailbox c i
  · rfl
  · refine on_of (group_out _) ?_
    cases EmailParser.group c i <;> rfl
  · rfl

@[simp] theorem addressList_out (i : Bytes) : (addressList c i).out = EmailParser.addressList c i :=
  bind_of (address_out i) fun _ => bind_of (many_of (fun i => prefixed_of address_out i _) _) fun _ => rfl

/-! Dates -/

@[simp] theorem dayName_out (i : Bytes) : (dayName i).out = EmailParser.dayName i := by
  unfold dayName EmailParser.dayName
  refine tick_of (ite_of ?_ rfl)
  cases dayNames.lookup ((i.take 3).map asciiLower) <;> rfl

@[simp] theorem month_out (i : Bytes) : (month i).out = EmailParser.month i := by
  unfold month EmailParser.month
  refine tick_of (ite_of ?_ rfl)
  cases monthNames.lookup ((i.take 3).map asciiLower) <;> rfl

@[simp] theorem dayOfWeek_out (i : Bytes) : (dayOfWeek i).out = EmailParser.dayOfWeek i :=
  bind_of (optionalFws_out _) fun _ => bind_of (dayName_out _) fun _ => bind_of (tag_out ..) fun _ => rfl

@[simp] theorem year_out (i : Bytes) : (year i).out = EmailParser.year i := by
  refine bind_of (fws_out i) fun _ => bind_of (congrArg (Outcome.mapErr · _) (takeWhile1_out ..)) fun y => ite_of rfl ?_
  cases parseUnsigned (2 ^ 64) y.2 with
  | none => rfl
  | some y => exact ite_of rfl (bind_of (fws_out _) fun _ => rfl)

@[simp] theorem secondDigit_out (n : Nat) (i : Bytes) : (secondDigit n i).out = EmailParser.secondDigit n i := by
  unfold secondDigit EmailParser.secondDigit
  refine on_of (digit_out _) ?_
  cases EmailParser.digit i
  · exact bind_of rfl fun _ => bind_of rfl fun _ => rfl
  · rfl
  · rfl

@[simp] theorem day_out (i : Bytes) : (day i).out = EmailParser.day i :=
  bind_of (optionalFws_out _) fun _ => bind_of (digit_out _) fun _ => bind_of (secondDigit_out ..) fun _ => ite_of rfl (bind_of (fws_out _) fun _ => rfl)

@[simp] theorem timeOfDay_out (i : Bytes) : (timeOfDay i).out = EmailParser.timeOfDay i := by
  refine bind_of (twoDigits_out i) ?_
  rintro ⟨i, h⟩
  refine ite_of rfl (bind_of (tag_out ..) ?_)
  rintro ⟨i, _⟩
  refine bind_of (twoDigits_out i) ?_
  rintro ⟨i, m⟩
  refine ite_of rfl (ite_of (tick_of (bind_of rfl fun t => on_of (twoDigits_out t) ?_)) rfl)
  cases EmailParser.twoDigits t
  · exact ite_of rfl rfl
  · rfl
  · rfl

@[simp] theorem zoneSign_out (i : Bytes) : (zoneSign i).out = EmailParser.zoneSign i := by
  unfold zoneSign EmailParser.zoneSign
  refine tick_of ?_
  cases i
  · rfl
  · exact ite_of rfl (ite_of rfl rfl)

@[simp] theorem zone_out (i : Bytes) : (zone i).out = EmailParser.zone i :=
  bind_of (fws_out _) fun _ => bind_of (zoneSign_out _) fun _ => bind_of (twoDigits_out _) fun _ => bind_of (twoDigits_out _) fun _ => ite_of rfl rfl

@[simp] theorem time_out (i : Bytes) : (time i).out = EmailParser.time i :=
  bind_of (timeOfDay_out _) fun _ => bind_of (zone_out _) fun _ => rfl

@[simp] theorem date_out (i : Bytes) : (date i).out = EmailParser.date i :=
  bind_of (day_out _) fun _ => bind_of (month_out _) fun _ => bind_of (year_out _) fun _ => rfl

@[simp] theorem dateTime_out (i : Bytes) : (dateTime c i).out = EmailParser.dateTime c i :=
  bind_of (optional_of dayOfWeek_out _) fun _ => bind_of (date_out _) fun _ =>
    bind_of (time_out _) fun _ => bind_of (skipCfws_out _) fun _ => rfl

/-! MIME -/

@[simp] theorem ignoreInlineCfws_out (i : Bytes) :
    (ignoreInlineCfws c i).out = EmailParser.ignoreInlineCfws c i :=
  bind_of (triplet_of (fun _ => takeWhile_out ..) (fun i => optional_of (comment_out _) i)
    (fun _ => takeWhile_out ..) i) fun _ => rfl

@[simp] theorem token_out (i : Bytes) : (token i).out = EmailParser.token i := takeWhile1_out ..

@[simp] theorem u8NumberLoop_out (n : Nat) : ∀ i m,
    (u8NumberLoop n i m).out = EmailParser.u8NumberLoop n i m := by
  induction n with
  | zero => intro i m; rfl
  | succ n ih =>
    intro i m
    unfold u8NumberLoop EmailParser.u8NumberLoop
    refine tick_of (on_of (digit_out _) ?_)
    cases EmailParser.digit i
    · exact ite_of (ite_of (ih _ _) rfl) rfl
    · rfl
    · rfl

@[simp] theorem u8Number_out (i : Bytes) : (u8Number i).out = EmailParser.u8Number i :=
  bind_of (digit_out _) fun _ => u8NumberLoop_out ..

@[simp] theorem mimeVersionValue_out (i : Bytes) :
    (mimeVersionValue c i).out = EmailParser.mimeVersionValue c i :=
  bind_of (skipCfws_out _) fun _ => bind_of (u8Number_out _) fun _ => bind_of (tag_out ..) fun _ => bind_of (u8Number_out _) fun _ => bind_of (ignoreInlineCfws_out _) fun _ => rfl

@[simp] theorem encodedMark_out (i : Bytes) : (encodedMark i).out = EmailParser.encodedMark i :=
  tick_of (ite_of (bind_of rfl fun _ => rfl) rfl)

@[simp] theorem extendedName_out (i : Bytes) : (extendedName i).out = EmailParser.extendedName i :=
  bind_of (takeWhile1_out ..) fun _ =>
    bind_of (optional_of (fun i => pair_of (fun _ => tag_out ..) (fun _ => takeWhile1_out ..) i) _)
      fun _ => bind_of rfl fun _ => bind_of (encodedMark_out _) fun _ => ite_of rfl rfl

@[simp] theorem parameterValue_out (i : Bytes) : (parameterValue c i).out = EmailParser.parameterValue c i :=
  matchParsers_of (.cons (fun i => bind_of (token_out i) fun _ => rfl) (.cons quotedString_out .nil)) i

@[simp] theorem parameter_out (i : Bytes) : (parameter c i).out = EmailParser.parameter c i :=
  bind_of (skipCfws_out _) fun _ => bind_of (tag_out ..) fun _ => bind_of (skipCfws_out _) fun _ =>
    bind_of (matchParsers_of (.cons extendedName_out (.cons (fun i => bind_of (token_out i) fun _ => rfl)
      .nil)) _) fun _ => bind_of (tag_out ..) fun _ => bind_of (parameterValue_out _) fun _ => rfl

theorem keyword_of (a b : Bytes) (m : String) (v : α) :
    Same (keyword a b m v) (EmailParser.keyword a b m v) := fun _ =>
  bind_of (tagNoCase_out ..) fun _ => rfl

theorem otherToken_of (mk : Bytes → α) : Same (otherToken mk) (EmailParser.otherToken mk) := fun _ =>
  bind_of (token_out _) fun _ => rfl

@[simp] theorem mimeType_out (i : Bytes) : (mimeType i).out = EmailParser.mimeType i := by
  unfold mimeType EmailParser.mimeType
  refine matchParsers_of ?_ i
  repeat' first | exact .nil | refine .cons (keyword_of _ _ _ _) ?_ | refine .cons (otherToken_of _) ?_

@[simp] theorem contentTypeValue_out (i : Bytes) :
    (contentTypeValue c i).out = EmailParser.contentTypeValue c i :=
  bind_of (skipCfws_out _) fun _ => bind_of (mimeType_out _) fun _ => bind_of (tag_out ..) fun _ =>
    bind_of (token_out _) fun _ => bind_of (many_of parameter_out _) fun _ => bind_of rfl fun _ =>
    bind_of (ignoreInlineCfws_out _) fun _ => rfl

@[simp] theorem filenameParameter_out (i : Bytes) :
    (filenameParameter c i).out = EmailParser.filenameParameter c i :=
  bind_of (skipCfws_out _) fun _ => bind_of (tag_out ..) fun _ => bind_of (skipCfws_out _) fun _ => bind_of (tagNoCase_out ..) fun _ => bind_of (tag_out ..) fun _ => parameterValue_out _

@[simp] theorem dateParameter_out (i a b : Bytes) :
    (dateParameter c i a b).out = EmailParser.dateParameter c i a b :=
  bind_of (skipCfws_out _) fun _ => bind_of (tag_out ..) fun _ => bind_of (skipCfws_out _) fun _ => bind_of (tagNoCase_out ..) fun _ => bind_of (tag_out ..) fun _ => bind_of (dateTime_out _) fun _ => bind_of (tag_out ..) fun _ => rfl

@[simp] theorem dispositionType_out (i : Bytes) :
    (dispositionType i).out = EmailParser.dispositionType i := by
  unfold dispositionType EmailParser.dispositionType
  refine matchParsers_of ?_ i
  repeat' first | exact .nil | refine .cons (keyword_of _ _ _ _) ?_ | refine .cons (otherToken_of _) ?_

@[simp] theorem dispositionItem_out (i : Bytes) :
    (dispositionItem c i).out = EmailParser.dispositionItem c i :=
  matchParsers_of (.cons (fun _ => bind_of (filenameParameter_out _) fun _ => rfl)
    (.cons (fun _ => bind_of (dateParameter_out ..) fun _ => rfl)
    (.cons (fun _ => bind_of (dateParameter_out ..) fun _ => rfl)
    (.cons (fun _ => bind_of (dateParameter_out ..) fun _ => rfl)
    (.cons (fun _ => bind_of (parameter_out _) fun _ => rfl) .nil))))) i

@[simp] theorem contentDispositionValue_out (i : Bytes) :
    (contentDispositionValue c i).out = EmailParser.contentDispositionValue c i :=
  bind_of (skipCfws_out _) fun _ => bind_of (dispositionType_out _) fun _ =>
    bind_of (many_of dispositionItem_out _) fun _ => bind_of rfl fun _ =>
    bind_of (ignoreInlineCfws_out _) fun _ => rfl

@[simp] theorem transferEncoding_out (i : Bytes) :
    (transferEncoding i).out = EmailParser.transferEncoding i := by
  unfold transferEncoding EmailParser.transferEncoding
  refine matchParsers_of ?_ i
  repeat' first | exact .nil | refine .cons (keyword_of _ _ _ _) ?_ | refine .cons (otherToken_of _) ?_

@[simp] theorem transferEncodingValue_out (i : Bytes) :
    (transferEncodingValue c i).out = EmailParser.transferEncodingValue c i :=
  bind_of (skipCfws_out _) fun _ => bind_of (transferEncoding_out _) fun _ => bind_of (ignoreInlineCfws_out _) fun _ => rfl

/-! Fields -/

@[simp] theorem bccValue_out (i : Bytes) : (bccValue c i).out = EmailParser.bccValue c i := by
  unfold bccValue EmailParser.bccValue
  refine on_of (addressList_out _) ?_
  cases EmailParser.addressList c i
  · rfl
  · refine on_of (cfws_out _) ?_
    cases EmailParser.cfws c i <;> rfl
  · rfl

@[simp] theorem messageIds_out (i : Bytes) : (messageIds c i).out = EmailParser.messageIds c i :=
  many1_of messageId_out i

@[simp] theorem textValue_out (i : Bytes) : (textValue c i).out = EmailParser.textValue c i :=
  ite_of (mimeUnstructured_out _) (unstructured_out _)

@[simp] theorem keywordList_out (i : Bytes) : (keywordList c i).out = EmailParser.keywordList c i :=
  bind_of (phrase_out i) fun _ => bind_of (many_of (fun i => prefixed_of phrase_out i _) _) fun _ => rfl

theorem resent_of {p : Bytes → TRes α} {q : Bytes → Res α} {s : String} (h : Same p q) (i : Bytes) :
    (resent s p i).out = EmailParser.resent s q i :=
  bind_of (tagNoCase_out ..) fun _ => bind_of (h _) fun _ => rfl

@[simp] theorem emptyPath_out (i : Bytes) : (emptyPath c i).out = EmailParser.emptyPath c i :=
  bind_of (skipCfws_out _) fun _ => bind_of (tag_out ..) fun _ => bind_of (skipCfws_out _) fun _ => bind_of (tag_out ..) fun _ => bind_of (skipCfws_out _) fun _ => rfl

@[simp] theorem returnPathValue_out (i : Bytes) :
    (returnPathValue c i).out = EmailParser.returnPathValue c i :=
  matchParsers_of (.cons (fun _ => bind_of (angleAddr_out _) fun _ => rfl)
    (.cons (fun _ => bind_of (emptyPath_out _) fun _ => rfl) .nil)) i

@[simp] theorem receivedToken_out (i : Bytes) :
    (receivedToken c i).out = EmailParser.receivedToken c i := by
  unfold receivedToken EmailParser.receivedToken
  refine on_of (word_out _) ?_
  cases EmailParser.word c i
  · refine on_of (domain_out _) ?_
    cases EmailParser.domain c i
    · exact ite_of rfl rfl
    · rfl
    · rfl
  · refine on_of (angleAddr_out _) ?_
    cases EmailParser.angleAddr c i
    · rfl
    · refine on_of (addrSpec_out _) ?_
      cases EmailParser.addrSpec c i
      · rfl
      · refine on_of (domain_out _) ?_
        cases EmailParser.domain c i <;> rfl
      · rfl
    · rfl
  · rfl

@[simp] theorem receivedValue_out (i : Bytes) :
    (receivedValue c i).out = EmailParser.receivedValue c i :=
  bind_of (many_of receivedToken_out _) fun _ => bind_of (tag_out ..) fun _ =>
    bind_of (dateTime_out _) fun _ => rfl

@[simp] theorem unknownValue_out (i : Bytes) : (unknownValue c i).out = EmailParser.unknownValue c i :=
  ite_of (mimeUnstructured_out _) (unstructured_out _)

@[simp] theorem unknown_out (i : Bytes) : (unknown c i).out = EmailParser.unknown c i :=
  bind_of (takeWhile1_out ..) fun _ => bind_of (tag_out ..) fun _ => bind_of (unknownValue_out _) fun _ => bind_of (tag_out ..) fun _ => rfl

theorem mapValue_of {p : Bytes → TRes α} {q : Bytes → Res α} (f : α → β) (h : Same p q) :
    Same (mapValue f p) (EmailParser.mapValue f q) := fun i => bind_of (h i) fun _ => rfl

theorem dateField_of : Same (dateField c) (EmailParser.dateField c) := headerLine_of dateTime_out
theorem fromField_of : Same (fromField c) (EmailParser.fromField c) := headerLine_of mailboxList_out
theorem senderField_of : Same (senderField c) (EmailParser.senderField c) := headerLine_of mailbox_out
theorem replyToField_of : Same (replyToField c) (EmailParser.replyToField c) :=
  headerLine_of addressList_out
theorem toField_of : Same (toField c) (EmailParser.toField c) := headerLine_of addressList_out
theorem ccField_of : Same (ccField c) (EmailParser.ccField c) := headerLine_of addressList_out
theorem bccField_of : Same (bccField c) (EmailParser.bccField c) := headerLine_of bccValue_out
theorem messageIdField_of : Same (messageIdField c) (EmailParser.messageIdField c) :=
  headerLine_of messageId_out
theorem inReplyToField_of : Same (inReplyToField c) (EmailParser.inReplyToField c) :=
  headerLine_of messageIds_out
theorem referencesField_of : Same (referencesField c) (EmailParser.referencesField c) :=
  headerLine_of messageIds_out
theorem subjectField_of : Same (subjectField c) (EmailParser.subjectField c) :=
  headerLine_of textValue_out
theorem commentsField_of : Same (commentsField c) (EmailParser.commentsField c) :=
  headerLine_of textValue_out
theorem keywordsField_of : Same (keywordsField c) (EmailParser.keywordsField c) :=
  headerLine_of keywordList_out
theorem mimeVersion_of : Same (mimeVersion c) (EmailParser.mimeVersion c) :=
  headerLine_of mimeVersionValue_out
theorem contentType_of : Same (contentType c) (EmailParser.contentType c) :=
  headerLine_of contentTypeValue_out
theorem contentTransferEncoding_of :
    Same (contentTransferEncoding c) (EmailParser.contentTransferEncoding c) :=
  headerLine_of transferEncodingValue_out
theorem contentId_of : Same (contentId c) (EmailParser.contentId c) := headerLine_of messageId_out
theorem contentDescription_of : Same (contentDescription c) (EmailParser.contentDescription c) :=
  headerLine_of mimeUnstructured_out
theorem contentDisposition_of : Same (contentDisposition c) (EmailParser.contentDisposition c) :=
  headerLine_of contentDispositionValue_out
theorem returnPath_of : Same (returnPath c) (EmailParser.returnPath c) :=
  headerLine_of returnPathValue_out
theorem received_of : Same (received c) (EmailParser.received c) := headerLine_of receivedValue_out

theorem trace_of : Same (trace c) (EmailParser.trace c) := fun _ =>
  bind_of (optional_of returnPath_of _) fun _ => bind_of (many1_of received_of _) fun _ => rfl

theorem traceFieldParsers_of : SameAll (traceFieldParsers c) (EmailParser.traceFieldParsers c) :=
  .cons (mapValue_of _ (resent_of dateField_of)) (.cons (mapValue_of _ (resent_of fromField_of))
  (.cons (mapValue_of _ (resent_of senderField_of)) (.cons (mapValue_of _ (resent_of toField_of))
  (.cons (mapValue_of _ (resent_of ccField_of)) (.cons (mapValue_of _ (resent_of bccField_of))
  (.cons (mapValue_of _ (resent_of messageIdField_of)) .nil))))))

theorem enabled_of {b : Bool} {p : Bytes → TRes α} {q : Bytes → Res α} (h : Same p q) :
    SameAll (enabled b p) (enabled b q) := by
  cases b
  · exact .nil
  · exact .cons h .nil

theorem fieldParsers_of : SameAll (fieldParsers c) (EmailParser.fieldParsers c) := by
  unfold fieldParsers EmailParser.fieldParsers
  repeat' apply SameAll.append
  · exact enabled_of (mapValue_of _ dateField_of)
  · exact enabled_of (mapValue_of _ fromField_of)
  · exact enabled_of (mapValue_of _ senderField_of)
  · exact enabled_of (mapValue_of _ replyToField_of)
  · exact enabled_of (mapValue_of _ toField_of)
  · exact enabled_of (mapValue_of _ ccField_of)
  · exact enabled_of (mapValue_of _ bccField_of)
  · exact enabled_of (mapValue_of _ messageIdField_of)
  · exact enabled_of (mapValue_of _ inReplyToField_of)
  · exact enabled_of (mapValue_of _ referencesField_of)
  · exact enabled_of (mapValue_of _ subjectField_of)
  · exact enabled_of (mapValue_of _ commentsField_of)
  · exact enabled_of (mapValue_of _ mimeVersion_of)
  · exact enabled_of (mapValue_of _ contentType_of)
  · exact enabled_of (mapValue_of _ contentTransferEncoding_of)
  · exact enabled_of (mapValue_of _ contentId_of)
  · exact enabled_of (mapValue_of _ contentDescription_of)
  · exact enabled_of (mapValue_of _ contentDisposition_of)
  · exact enabled_of (mapValue_of _ keywordsField_of)
  · exact .cons (mapValue_of _ unknown_out) .nil

theorem traceBlock_of : Same (traceBlock c) (EmailParser.traceBlock c) := fun _ =>
  bind_of (trace_of _) fun _ =>
    bind_of (many_of (fun i => matchParsers_of traceFieldParsers_of i) _) fun _ => rfl

theorem field_of : Same (field c) (EmailParser.field c) := matchParsers_of fieldParsers_of

@[simp] theorem traces_out (i : Bytes) : (traces c i).out = EmailParser.traces c i := by
  unfold traces EmailParser.traces
  exact ite_of (many_of traceBlock_of i) rfl

@[simp] theorem fields_out (i : Bytes) : (fields c i).out = EmailParser.fields c i :=
  bind_of (traces_out _) fun _ => bind_of (many_of field_of _) fun _ => rfl

@[simp] theorem checkLine_out (i : Bytes) : (checkLine i).out = EmailParser.checkLine i := by
  unfold checkLine EmailParser.checkLine
  refine tick_of ?_
  dsimp only
  cases firstFailing isText 0 (i.take (min i.length 998)) <;> exact bind_of rfl fun _ => rfl

@[simp] theorem bodyLoop_out (n : Nat) : ∀ i, (bodyLoop n i).out = EmailParser.bodyLoop n i := by
  induction n with
  | zero => intro i; rfl
  | succ n ih =>
    intro i
    refine tick_of (bind_of (checkLine_out _) ?_)
    rintro ⟨i, v⟩
    refine on_of (tag_out ..) ?_
    dsimp only
    cases EmailParser.tag i (b! "\r\n") "TAG ERROR: In a body, a line must end with a CRLF sequence."
    · exact ih _
    · exact ite_of rfl rfl
    · rfl

@[simp] theorem body_out (i : Bytes) : (body i).out = EmailParser.body i :=
  ite_of rfl (bind_of (tag_out ..) fun _ => bind_of (bodyLoop_out ..) fun _ => bind_of rfl fun _ => rfl)

@[simp] theorem parseMessage_out (i : Bytes) : (parseMessage c i).out = EmailParser.parseMessage c i :=
  bind_of (fields_out _) fun _ => ite_of (ite_of rfl (bind_of (tag_out ..) fun _ => rfl))
    (bind_of (body_out _) fun _ => rfl)

/-- Counting steps does not change what the library does. -/
theorem parse_out (i : Bytes) : (parse c i).out = Email.parse c i :=
  bind_of (parseMessage_out _) fun _ => tick_of (bind_of rfl fun _ => rfl)

end EmailParser.Timed
