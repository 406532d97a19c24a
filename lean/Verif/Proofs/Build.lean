import Verif.Proofs.Order
import Verif.Proofs.Email
/-
A build with more room on the stack, without overflow checks, or with another order of hash maps returns the same, unless the
first one is aborted.
-/
namespace EmailParser

variable {α β : Type}

/-- The first program is aborted, or both succeed with the same value, or both fail. -/
inductive Under : Outcome α → Outcome α → Prop
  | abort {k : Abort} {y : Outcome α} : Under (.abort k) y
  | ok {v : α} : Under (.ok v) (.ok v)
  | err {e e' : Error} : Under (.err e) (.err e')

theorem Under.refl (x : Outcome α) : Under x x := by
  cases x with
  | ok v => exact .ok
  | err e => exact .err
  | abort k => exact .abort

theorem Under.of_eq {x y : Outcome α} (h : x = y) : Under x y := h ▸ .refl x

theorem Under.agree {x y z : Outcome α} (h : Under x y) (h' : Agree y z) : Under x z := by
  rcases h' with rfl | ⟨e, e', rfl, rfl⟩
  · exact h
  · cases h with
    | abort => exact .abort
    | err => exact .err

theorem Under.bind {x y : Outcome α} {f g : α → Outcome β} (h : Under x y)
    (hf : ∀ a, x = .ok a → Under (f a) (g a)) : Under (x >>= f) (y >>= g) := by
  cases h with
  | ok => exact hf _ rfl
  | err => exact .err
  | abort => exact .abort

theorem Under.mapErr {x y : Outcome α} (e : Error) (h : Under x y) : Under (x.mapErr e) (y.mapErr e) := by
  cases h with
  | ok => exact .ok
  | err => exact .err
  | abort => exact .abort

theorem under_optional {p q : Bytes → Res α} {i : Bytes} (h : Under (p i) (q i)) : Under (optional i p) (optional i q) := by
  unfold optional
  cases hp : p i <;> cases hq : q i <;> rw [hp, hq] at h <;> cases h <;> first | exact .abort | exact .refl _

/-- The parsers of the first list are under those of the second one, for this input. -/
inductive UnderAll (i : Bytes) : List (Bytes → Res α) → List (Bytes → Res α) → Prop
  | nil : UnderAll i [] []
  | cons {p q : Bytes → Res α} {ps qs : List (Bytes → Res α)} :
    Under (p i) (q i) → UnderAll i ps qs → UnderAll i (p :: ps) (q :: qs)

theorem under_matchParsers {i : Bytes} {ps qs : List (Bytes → Res α)}
    (h : UnderAll i ps qs) : Under (matchParsers i ps) (matchParsers i qs) := by
  induction h with
  | nil => exact .refl _
  | @cons p q ps qs h _ ih =>
    unfold matchParsers
    cases hp : p i <;> cases hq : q i <;> rw [hp, hq] at h <;> cases h <;> first | exact .abort | exact .ok | exact ih

theorem under_ignoreManyLoop {p q : Bytes → Res α} (h : ∀ i, Under (p i) (q i)) :
    ∀ fuel i, Under (ignoreManyLoop p fuel i) (ignoreManyLoop q fuel i)
  | 0, _ => .abort
  | fuel + 1, i => by
    have h' := h i
    unfold ignoreManyLoop
    cases hp : p i <;> cases hq : q i <;> rw [hp, hq] at h' <;> cases h' <;>
      first | exact .abort | exact .ok | exact under_ignoreManyLoop h fuel _

theorem under_ignoreMany {p q : Bytes → Res α} (h : ∀ i, Under (p i) (q i)) (i : Bytes) :
    Under (ignoreMany i p) (ignoreMany i q) := under_ignoreManyLoop h _ i

theorem under_manyLoop {p q : Bytes → Res α} (h : ∀ i, Under (p i) (q i)) :
    ∀ fuel i, Under (manyLoop p fuel i) (manyLoop q fuel i)
  | 0, _ => .abort
  | fuel + 1, i => by
    have h' := h i
    unfold manyLoop
    cases hp : p i <;> cases hq : q i <;> rw [hp, hq] at h' <;> cases h' <;>
      first
      | exact .abort
      | exact .ok
      | exact .bind (under_manyLoop h fuel _) fun _ _ => .refl _

theorem under_many {p q : Bytes → Res α} (h : ∀ i, Under (p i) (q i)) (i : Bytes) :
    Under (many i p) (many i q) := under_manyLoop h _ i

theorem under_many1 {p q : Bytes → Res α} (h : ∀ i, Under (p i) (q i)) (i : Bytes) :
    Under (many1 i p) (many1 i q) :=
  .bind (h i) fun _ _ => .bind (under_manyLoop h _ _) fun _ _ => .refl _

theorem under_pair {p q : Bytes → Res α} {p' q' : Bytes → Res β} (h : ∀ i, Under (p i) (q i)) (h' : ∀ i, Under (p' i) (q' i))
    (i : Bytes) : Under (pair i p p') (pair i q q') :=
  .bind (h i) fun _ _ => .bind (h' _) fun _ _ => .refl _

theorem under_prefixed {p q : Bytes → Res α} (h : ∀ i, Under (p i) (q i)) (i x : Bytes) :
    Under (prefixed i p x) (prefixed i q x) := by
  unfold prefixed
  split
  · exact .bind (.refl _) fun _ _ => h _
  · exact .refl _

theorem under_mapValue {f : α → β} {p q : Bytes → Res α} {i : Bytes} (h : Under (p i) (q i)) :
    Under (mapValue f p i) (mapValue f q i) := .bind h fun _ _ => .refl _

theorem under_headerLine {name name2 : Bytes} {m m' : String} {p q : Bytes → Res α} (h : ∀ i, Under (p i) (q i)) (i : Bytes) :
    Under (headerLine name name2 m m' p i) (headerLine name name2 m m' q i) :=
  .bind (.refl _) fun _ _ => .bind (h _) fun _ _ => .refl _

theorem under_resent {m : String} {p q : Bytes → Res α} (h : ∀ i, Under (p i) (q i)) (i : Bytes) :
    Under (resent m p i) (resent m q i) :=
  .bind (.refl _) fun _ _ => .bind (h _) fun _ _ => .refl _

/-! ### The parsers -/

theorem under_comment : ∀ {m n : Nat}, m ≤ n → ∀ i, Under (comment m i) (comment n i)
  | 0, n, _, i => by
    cases n with
    | zero => exact .refl _
    | succ n =>
      unfold comment
      refine .bind (.refl _) fun _ _ => .abort
  | m + 1, 0, h, _ => absurd h (by omega)
  | m + 1, n + 1, h, i => by
    unfold comment
    refine .bind (.refl _) fun _ _ => .bind (under_ignoreMany (fun i => under_pair (fun _ => .refl _) (fun i => ?_) i) _)
      fun _ _ => .refl _
    exact under_matchParsers (.cons (.refl _) (.cons (.refl _) (.cons (under_comment (by omega) i) .nil)))

/-- Another build of the same sources. -/
def Cfg.roomy (c : Cfg) (n : Nat) (b : Bool) (o : List (Bytes × Segments) → List (Bytes × Segments))
    (ho : ∀ l, (o l).Perm l) : Cfg :=
  { c with stack := n, overflowChecks := b, mapOrder := o, mapOrder_perm := ho }

/-- It has no less room on the stack, and it has no overflow checks unless nothing else is changed. -/
structure Roomier (c : Cfg) (n : Nat) (b : Bool) (o : List (Bytes × Segments) → List (Bytes × Segments)) : Prop where
  stack : c.stack ≤ n
  checks : b = false ∨ (b = c.overflowChecks ∧ o = c.mapOrder)

variable {c : Cfg} {n : Nat} {b : Bool} {o : List (Bytes × Segments) → List (Bytes × Segments)} {ho : ∀ l, (o l).Perm l}

theorem roomy_decodeWord : decodeWord (c.roomy n b o ho) = decodeWord c := rfl

theorem roomy_encodedWord : encodedWord (c.roomy n b o ho) = encodedWord c := rfl

theorem roomy_dotAtomTextLoop : ∀ fuel i, dotAtomTextLoop (c.roomy n b o ho) fuel i = dotAtomTextLoop c fuel i
  | 0, _ => rfl
  | fuel + 1, i => by
    unfold dotAtomTextLoop
    simp only [roomy_dotAtomTextLoop fuel]
    rfl

theorem roomy_dotAtomText : dotAtomText (c.roomy n b o ho) = dotAtomText c := by
  funext i
  unfold dotAtomText
  simp only [roomy_dotAtomTextLoop]

theorem roomy_mimeUnstructuredLoop : ∀ fuel x i,
    mimeUnstructuredLoop (c.roomy n b o ho) fuel x i = mimeUnstructuredLoop c fuel x i
  | 0, _, _ => rfl
  | fuel + 1, b, i => by
    unfold mimeUnstructuredLoop
    simp only [roomy_encodedWord, roomy_mimeUnstructuredLoop fuel]

theorem roomy_mimeUnstructured : mimeUnstructured (c.roomy n b o ho) = mimeUnstructured c := by
  funext i
  unfold mimeUnstructured
  simp only [roomy_mimeUnstructuredLoop]

theorem roomy_segmentsLoop (charset : Option Bytes) : ∀ fuel values idx,
    segmentsLoop (c.roomy n c.overflowChecks o ho) charset fuel values idx = segmentsLoop c charset fuel values idx
  | 0, _, _ => rfl
  | fuel + 1, values, idx => by
    unfold segmentsLoop
    simp only [roomy_segmentsLoop charset fuel]
    rfl

theorem roomy_collectAll : ∀ ps l, collectAll (c.roomy n c.overflowChecks o ho) ps l = collectAll c ps l
  | _, [] => rfl
  | ps, entry :: l => by
    unfold collectAll collectOne
    simp only [roomy_collectAll, roomy_segmentsLoop]
    rfl

theorem roomy_feat : (c.roomy n b o ho).feat = c.feat := rfl

section
variable (hn : Roomier c n b o)
include hn

theorem under_realCfwsLoop : ∀ fuel i, Under (realCfwsLoop c fuel i) (realCfwsLoop (c.roomy n b o ho) fuel i)
  | 0, _ => .abort
  | fuel + 1, i => by
    unfold realCfwsLoop
    refine .bind (.refl _) fun ⟨i', w⟩ _ => ?_
    have h : Under (comment c.stack i') (comment (c.roomy n b o ho).stack i') := under_comment hn.stack i'
    dsimp only
    generalize comment c.stack i' = x at h ⊢
    generalize comment (c.roomy n b o ho).stack i' = y at h ⊢
    cases h with
    | abort => exact .abort
    | err => exact .ok
    | ok => exact .bind (under_realCfwsLoop fuel _) fun _ _ => .refl _

theorem under_cfws (i : Bytes) : Under (cfws c i) (cfws (c.roomy n b o ho) i) := by
  refine under_matchParsers (.cons ?_ (.cons (.refl _) .nil))
  unfold realCfws
  refine .bind (.refl _) fun ⟨i', w⟩ _ => ?_
  have h : Under (comment c.stack i') (comment (c.roomy n b o ho).stack i') := under_comment hn.stack i'
  dsimp only
  generalize comment c.stack i' = x at h ⊢
  generalize comment (c.roomy n b o ho).stack i' = y at h ⊢
  cases h with
  | abort => exact .abort
  | err => exact .err
  | ok => exact .bind (under_realCfwsLoop hn _ _) fun _ _ => .refl _

theorem under_skipCfws (i : Bytes) : Under (skipCfws c i) (skipCfws (c.roomy n b o ho) i) := by
  have h := under_cfws (b := b) (o := o) (ho := ho) hn i
  unfold skipCfws
  generalize cfws c i = x at h ⊢
  generalize cfws (c.roomy n b o ho) i = y at h ⊢
  cases h with
  | abort => exact .abort
  | err => exact .ok
  | ok => exact .ok

theorem under_quotedString (i : Bytes) : Under (quotedString c i) (quotedString (c.roomy n b o ho) i) := by
  unfold quotedString
  refine .bind (under_skipCfws hn _) fun i _ => ?_
  split
  · refine .bind (.refl _) fun i _ => .bind (.refl _) fun ⟨i, a⟩ _ => .bind (.refl _) fun ⟨i, b⟩ _ => ?_
    dsimp only
    split
    · exact .bind (.refl _) fun i _ => .bind (under_skipCfws hn _) fun _ _ => .refl _
    · exact .refl _
  · exact .refl _

theorem under_atom (i : Bytes) : Under (atom c i) (atom (c.roomy n b o ho) i) :=
  .bind (under_skipCfws hn _) fun _ _ => .bind (.refl _) fun _ _ => .bind (under_skipCfws hn _) fun _ _ => .refl _

theorem under_dotAtom (i : Bytes) : Under (dotAtom c i) (dotAtom (c.roomy n b o ho) i) :=
  .bind (under_skipCfws hn _) fun _ _ => .bind (.of_eq (by rw [roomy_dotAtomText])) fun _ _ =>
    .bind (under_skipCfws hn _) fun _ _ => .refl _

theorem under_word (i : Bytes) : Under (word c i) (word (c.roomy n b o ho) i) :=
  under_matchParsers (.cons (under_atom hn i) (.cons (under_quotedString hn i) .nil))

theorem under_phraseWord (i : Bytes) : Under (phraseWord c i) (phraseWord (c.roomy n b o ho) i) := by
  unfold phraseWord
  rw [roomy_feat]
  split
  · exact under_matchParsers (.cons (.refl _) (.cons (under_word hn i) .nil))
  · exact under_word hn i

theorem under_phrase (i : Bytes) : Under (phrase c i) (phrase (c.roomy n b o ho) i) :=
  under_many1 (under_phraseWord hn) i

theorem under_messageId (i : Bytes) : Under (messageId c i) (messageId (c.roomy n b o ho) i) := by
  unfold messageId
  rw [roomy_dotAtomText]
  exact .bind (under_skipCfws hn _) fun _ _ => .bind (.refl _) fun _ _ => .bind (.refl _) fun _ _ => .bind (.refl _) fun _ _ =>
    .bind (.refl _) fun _ _ => .bind (.refl _) fun _ _ => .bind (under_skipCfws hn _) fun _ _ => .refl _

theorem under_domainLiteral (i : Bytes) : Under (domainLiteral c i) (domainLiteral (c.roomy n b o ho) i) :=
  .bind (under_skipCfws hn _) fun _ _ => .bind (.refl _) fun _ _ => .bind (.refl _) fun _ _ => .bind (.refl _) fun _ _ =>
    .bind (.refl _) fun _ _ => .bind (under_skipCfws hn _) fun _ _ => .refl _

theorem under_addrSpec (i : Bytes) : Under (addrSpec c i) (addrSpec (c.roomy n b o ho) i) :=
  .bind (under_matchParsers (.cons (under_dotAtom hn _) (.cons (under_quotedString hn _) .nil))) fun _ _ =>
    .bind (.refl _) fun _ _ =>
      .bind (under_matchParsers (.cons (under_dotAtom hn _) (.cons (under_domainLiteral hn _) .nil))) fun _ _ => .refl _

theorem under_angleAddr (i : Bytes) : Under (angleAddr c i) (angleAddr (c.roomy n b o ho) i) :=
  .bind (under_skipCfws hn _) fun _ _ => .bind (.refl _) fun _ _ => .bind (under_addrSpec hn _) fun _ _ =>
    .bind (.refl _) fun _ _ => .bind (under_skipCfws hn _) fun _ _ => .refl _

theorem under_mailbox (i : Bytes) : Under (mailbox c i) (mailbox (c.roomy n b o ho) i) :=
  under_matchParsers (.cons
    (.bind (under_optional (under_phrase hn _)) fun _ _ => .bind (under_angleAddr hn _) fun _ _ => .refl _)
    (.cons (.bind (under_addrSpec hn _) fun _ _ => .refl _) .nil))

theorem under_mailboxList (i : Bytes) : Under (mailboxList c i) (mailboxList (c.roomy n b o ho) i) :=
  .bind (under_mailbox hn _) fun _ _ =>
    .bind (under_many (fun i => under_prefixed (under_mailbox hn) i _) _) fun _ _ => .refl _

theorem under_groupList (i : Bytes) : Under (groupList c i) (groupList (c.roomy n b o ho) i) := by
  have h := under_mailboxList (b := b) (o := o) (ho := ho) hn i
  have h' := under_cfws (b := b) (o := o) (ho := ho) hn i
  unfold groupList
  generalize mailboxList c i = x at h ⊢
  generalize mailboxList (c.roomy n b o ho) i = y at h ⊢
  generalize cfws c i = x' at h' ⊢
  generalize cfws (c.roomy n b o ho) i = y' at h' ⊢
  cases h with
  | abort => exact .abort
  | ok => exact .ok
  | err =>
    cases h' with
    | abort => exact .abort
    | ok => exact .ok
    | err => exact .ok

theorem under_group (i : Bytes) : Under (group c i) (group (c.roomy n b o ho) i) :=
  .bind (under_phrase hn _) fun _ _ => .bind (.refl _) fun _ _ => .bind (under_groupList hn _) fun _ _ =>
    .bind (.refl _) fun _ _ => .bind (under_skipCfws hn _) fun _ _ => .refl _

theorem under_address (i : Bytes) : Under (address c i) (address (c.roomy n b o ho) i) := by
  have h := under_mailbox (b := b) (o := o) (ho := ho) hn i
  have h' := under_group (b := b) (o := o) (ho := ho) hn i
  unfold address
  generalize mailbox c i = x at h ⊢
  generalize mailbox (c.roomy n b o ho) i = y at h ⊢
  generalize group c i = x' at h' ⊢
  generalize group (c.roomy n b o ho) i = y' at h' ⊢
  cases h with
  | abort => exact .abort
  | ok => exact .ok
  | err =>
    cases h' with
    | abort => exact .abort
    | ok => exact .ok
    | err => exact .err

theorem under_addressList (i : Bytes) : Under (addressList c i) (addressList (c.roomy n b o ho) i) :=
  .bind (under_address hn _) fun _ _ =>
    .bind (under_many (fun i => under_prefixed (under_address hn) i _) _) fun _ _ => .refl _

theorem under_dateTime (i : Bytes) : Under (dateTime c i) (dateTime (c.roomy n b o ho) i) :=
  .bind (.refl _) fun _ _ => .bind (.refl _) fun _ _ => .bind (.refl _) fun _ _ => .bind (under_skipCfws hn _) fun _ _ => .refl _

theorem under_ignoreInlineCfws (i : Bytes) : Under (ignoreInlineCfws c i) (ignoreInlineCfws (c.roomy n b o ho) i) := by
  unfold ignoreInlineCfws triplet
  exact .bind (.bind (.refl _) fun _ _ => .bind (under_optional (under_comment hn.stack _)) fun _ _ => .refl _) fun _ _ => .refl _

theorem under_mimeVersion (i : Bytes) : Under (mimeVersion c i) (mimeVersion (c.roomy n b o ho) i) :=
  under_headerLine (fun _ => .bind (under_skipCfws hn _) fun _ _ => .bind (.refl _) fun _ _ => .bind (.refl _) fun _ _ =>
    .bind (.refl _) fun _ _ => .bind (under_ignoreInlineCfws hn _) fun _ _ => .refl _) i

theorem under_parameterValue (i : Bytes) : Under (parameterValue c i) (parameterValue (c.roomy n b o ho) i) :=
  under_matchParsers (.cons (.refl _) (.cons (under_quotedString hn i) .nil))

theorem under_parameter (i : Bytes) : Under (parameter c i) (parameter (c.roomy n b o ho) i) :=
  .bind (under_skipCfws hn _) fun _ _ => .bind (.refl _) fun _ _ => .bind (under_skipCfws hn _) fun _ _ =>
    .bind (.refl _) fun _ _ => .bind (.refl _) fun _ _ => .bind (under_parameterValue hn _) fun _ _ => .refl _

theorem under_filenameParameter (i : Bytes) : Under (filenameParameter c i) (filenameParameter (c.roomy n b o ho) i) :=
  .bind (under_skipCfws hn _) fun _ _ => .bind (.refl _) fun _ _ => .bind (under_skipCfws hn _) fun _ _ =>
    .bind (.refl _) fun _ _ => .bind (.refl _) fun _ _ => under_parameterValue hn _

theorem under_dateParameter (i name name2 : Bytes) :
    Under (dateParameter c i name name2) (dateParameter (c.roomy n b o ho) i name name2) :=
  .bind (under_skipCfws hn _) fun _ _ => .bind (.refl _) fun _ _ => .bind (under_skipCfws hn _) fun _ _ =>
    .bind (.refl _) fun _ _ => .bind (.refl _) fun _ _ => .bind (under_dateTime hn _) fun _ _ => .refl _

theorem under_dispositionItem (i : Bytes) : Under (dispositionItem c i) (dispositionItem (c.roomy n b o ho) i) :=
  under_matchParsers (.cons (.bind (under_filenameParameter hn _) fun _ _ => .refl _)
    (.cons (.bind (under_dateParameter hn _ _ _) fun _ _ => .refl _)
    (.cons (.bind (under_dateParameter hn _ _ _) fun _ _ => .refl _)
    (.cons (.bind (under_dateParameter hn _ _ _) fun _ _ => .refl _)
    (.cons (.bind (under_parameter hn _) fun _ _ => .refl _) .nil)))))

theorem under_collectParameters {ps : List RawParam} (hs : IndicesSmall ps) :
    Under (collectParameters c ps) (collectParameters (c.roomy n b o ho) ps) := by
  rcases hn.checks with rfl | ⟨rfl, rfl⟩
  case inr => exact .of_eq (by unfold collectParameters; simp only [roomy_collectAll]; rfl)
  obtain ⟨a1, a2, -⟩ := collectParameters_spec (c := c) hs
  obtain ⟨b1, b2, b3⟩ := collectParameters_spec (c := c.roomy n false o ho) hs
  have b1 : ∀ q, collectParameters (c.roomy n false o ho) ps = .ok q → ∀ name, Spec.ParamValue c ps name (q name) := b1
  have b2 : ∀ x, collectParameters (c.roomy n false o ho) ps = .err x → ∃ name, ∀ v, ¬ Spec.ParamValue c ps name v := b2
  cases hx : collectParameters c ps with
  | abort k => exact .abort
  | ok q =>
    cases hy : collectParameters (c.roomy n false o ho) ps with
    | abort k => cases (b3 k hy).2.1
    | ok q' =>
      obtain rfl : q = q' := funext fun name => paramValue_unique (a1 q hx name) (b1 q' hy name)
      exact .ok
    | err e =>
      obtain ⟨name, hn⟩ := b2 e hy
      exact (hn _ (a1 q hx name)).elim
  | err e =>
    cases hy : collectParameters (c.roomy n false o ho) ps with
    | abort k => cases (b3 k hy).2.1
    | ok q' =>
      obtain ⟨name, hn⟩ := a2 e hx
      exact (hn _ (b1 q' hy name)).elim
    | err e' => exact .err

theorem under_contentType (i : Bytes) : Under (contentType c i) (contentType (c.roomy n b o ho) i) := by
  refine under_headerLine (fun i => ?_) i
  unfold contentTypeValue
  refine .bind (under_skipCfws hn _) fun _ _ => .bind (.refl _) fun _ _ => .bind (.refl _) fun _ _ => .bind (.refl _) fun _ _ =>
    .bind (under_many (under_parameter hn) _) fun ⟨_, ps⟩ h => ?_
  obtain ⟨_, -, hw⟩ := (many_parses parameter_progress (parameter_parses (c := c)) _).of_ok h
  exact .bind (under_collectParameters hn (parameters_small hw).1) fun _ _ =>
    .bind (under_ignoreInlineCfws hn _) fun _ _ => .refl _

theorem under_contentDisposition (i : Bytes) : Under (contentDisposition c i) (contentDisposition (c.roomy n b o ho) i) := by
  refine under_headerLine (fun i => ?_) i
  unfold contentDispositionValue
  refine .bind (under_skipCfws hn _) fun _ _ => .bind (.refl _) fun _ _ =>
    .bind (under_many (under_dispositionItem hn) _) fun ⟨_, items⟩ h => ?_
  obtain ⟨_, -, hw⟩ := (many_parses dispositionItem_progress (dispositionItem_parses (c := c)) _).of_ok h
  exact .bind (under_collectParameters hn (items_small hw).1) fun _ _ =>
    .bind (under_ignoreInlineCfws hn _) fun _ _ => .refl _

theorem under_contentTransferEncoding (i : Bytes) :
    Under (contentTransferEncoding c i) (contentTransferEncoding (c.roomy n b o ho) i) :=
  under_headerLine (fun _ => .bind (under_skipCfws hn _) fun _ _ => .bind (.refl _) fun _ _ =>
    .bind (under_ignoreInlineCfws hn _) fun _ _ => .refl _) i

theorem under_contentId (i : Bytes) : Under (contentId c i) (contentId (c.roomy n b o ho) i) :=
  under_headerLine (under_messageId hn) i

omit hn in
theorem under_contentDescription (i : Bytes) : Under (contentDescription c i) (contentDescription (c.roomy n b o ho) i) :=
  under_headerLine (fun _ => .of_eq (by rw [roomy_mimeUnstructured])) i

theorem under_bccValue (i : Bytes) : Under (bccValue c i) (bccValue (c.roomy n b o ho) i) := by
  have h := under_addressList (b := b) (o := o) (ho := ho) hn i
  have h' := under_cfws (b := b) (o := o) (ho := ho) hn i
  unfold bccValue
  generalize addressList c i = x at h ⊢
  generalize addressList (c.roomy n b o ho) i = y at h ⊢
  generalize cfws c i = x' at h' ⊢
  generalize cfws (c.roomy n b o ho) i = y' at h' ⊢
  cases h with
  | abort => exact .abort
  | ok => exact .ok
  | err =>
    cases h' with
    | abort => exact .abort
    | ok => exact .ok
    | err => exact .err

omit hn in
theorem under_textValue (i : Bytes) : Under (textValue c i) (textValue (c.roomy n b o ho) i) :=
  .of_eq (by unfold textValue; rw [roomy_feat, roomy_mimeUnstructured])

theorem under_keywordList (i : Bytes) : Under (keywordList c i) (keywordList (c.roomy n b o ho) i) :=
  .bind (under_phrase hn _) fun _ _ =>
    .bind (under_many (fun i => under_prefixed (under_phrase hn) i _) _) fun _ _ => .refl _

theorem under_receivedToken (i : Bytes) : Under (receivedToken c i) (receivedToken (c.roomy n b o ho) i) := by
  have h1 := under_word (b := b) (o := o) (ho := ho) hn i
  have h2 : Under (domain c i) (domain (c.roomy n b o ho) i) :=
    under_matchParsers (.cons (under_dotAtom hn _) (.cons (under_domainLiteral hn _) .nil))
  have h3 := under_angleAddr (b := b) (o := o) (ho := ho) hn i
  have h4 := under_addrSpec (b := b) (o := o) (ho := ho) hn i
  unfold receivedToken
  generalize word c i = x1 at h1 ⊢
  generalize word (c.roomy n b o ho) i = y1 at h1 ⊢
  generalize domain c i = x2 at h2 ⊢
  generalize domain (c.roomy n b o ho) i = y2 at h2 ⊢
  generalize angleAddr c i = x3 at h3 ⊢
  generalize angleAddr (c.roomy n b o ho) i = y3 at h3 ⊢
  generalize addrSpec c i = x4 at h4 ⊢
  generalize addrSpec (c.roomy n b o ho) i = y4 at h4 ⊢
  cases h1 with
  | abort => exact .abort
  | ok =>
    cases h2 with
    | abort => exact .abort
    | ok => exact .refl _
    | err => exact .ok
  | err =>
    cases h3 with
    | abort => exact .abort
    | ok => exact .ok
    | err =>
      cases h4 with
      | abort => exact .abort
      | ok => exact .ok
      | err =>
        cases h2 with
        | abort => exact .abort
        | ok => exact .ok
        | err => exact .err

theorem under_received (i : Bytes) : Under (received c i) (received (c.roomy n b o ho) i) :=
  under_headerLine (fun _ => .bind (under_many (under_receivedToken hn) _) fun _ _ => .bind (.refl _) fun _ _ =>
    .bind (under_dateTime hn _) fun _ _ => .refl _) i

theorem under_returnPath (i : Bytes) : Under (returnPath c i) (returnPath (c.roomy n b o ho) i) :=
  under_headerLine (fun _ => under_matchParsers (.cons (.bind (under_angleAddr hn _) fun _ _ => .refl _)
    (.cons (.bind (.bind (under_skipCfws hn _) fun _ _ => .bind (.refl _) fun _ _ => .bind (under_skipCfws hn _) fun _ _ =>
      .bind (.refl _) fun _ _ => .bind (under_skipCfws hn _) fun _ _ => .refl _) fun _ _ => .refl _) .nil))) i

theorem under_trace (i : Bytes) : Under (trace c i) (trace (c.roomy n b o ho) i) :=
  .bind (under_optional (under_returnPath hn _)) fun _ _ => .bind (under_many1 (under_received hn) _) fun _ _ => .refl _

theorem under_dateField (i : Bytes) : Under (dateField c i) (dateField (c.roomy n b o ho) i) :=
  under_headerLine (under_dateTime hn) i

theorem under_fromField (i : Bytes) : Under (fromField c i) (fromField (c.roomy n b o ho) i) :=
  under_headerLine (under_mailboxList hn) i

theorem under_senderField (i : Bytes) : Under (senderField c i) (senderField (c.roomy n b o ho) i) :=
  under_headerLine (under_mailbox hn) i

theorem under_toField (i : Bytes) : Under (toField c i) (toField (c.roomy n b o ho) i) :=
  under_headerLine (under_addressList hn) i

theorem under_ccField (i : Bytes) : Under (ccField c i) (ccField (c.roomy n b o ho) i) :=
  under_headerLine (under_addressList hn) i

theorem under_bccField (i : Bytes) : Under (bccField c i) (bccField (c.roomy n b o ho) i) :=
  under_headerLine (under_bccValue hn) i

theorem under_messageIdField (i : Bytes) : Under (messageIdField c i) (messageIdField (c.roomy n b o ho) i) :=
  under_headerLine (under_messageId hn) i

theorem under_traceBlock (i : Bytes) : Under (traceBlock c i) (traceBlock (c.roomy n b o ho) i) :=
  .bind (under_trace hn _) fun _ _ => .bind (under_many (fun _ => under_matchParsers
    (.cons (under_mapValue (under_resent (under_dateField hn) _))
    (.cons (under_mapValue (under_resent (under_fromField hn) _))
    (.cons (under_mapValue (under_resent (under_senderField hn) _))
    (.cons (under_mapValue (under_resent (under_toField hn) _))
    (.cons (under_mapValue (under_resent (under_ccField hn) _))
    (.cons (under_mapValue (under_resent (under_bccField hn) _))
    (.cons (under_mapValue (under_resent (under_messageIdField hn) _)) .nil)))))))) _) fun _ _ => .refl _

omit hn in
theorem under_unknown (i : Bytes) : Under (unknown c i) (unknown (c.roomy n b o ho) i) :=
  .of_eq (by unfold unknown unknownValue; rw [roomy_feat, roomy_mimeUnstructured])

omit hn in
theorem underAll_enabled {i : Bytes} {x : Bool} {p q : Bytes → Res α} {ps qs : List (Bytes → Res α)} (h : Under (p i) (q i))
    (hs : UnderAll i ps qs) :
    UnderAll i (enabled x p ++ ps) (enabled x q ++ qs) := by
  cases x
  · exact hs
  · exact .cons h hs

theorem under_field (i : Bytes) : Under (field c i) (field (c.roomy n b o ho) i) := by
  unfold field
  refine under_matchParsers ?_
  unfold fieldParsers
  simp only [List.append_assoc, roomy_feat]
  refine underAll_enabled (under_mapValue (under_dateField hn i)) ?_
  refine underAll_enabled (under_mapValue (under_fromField hn i)) ?_
  refine underAll_enabled (under_mapValue (under_senderField hn i)) ?_
  refine underAll_enabled (under_mapValue (under_headerLine (under_addressList hn) i)) ?_
  refine underAll_enabled (under_mapValue (under_toField hn i)) ?_
  refine underAll_enabled (under_mapValue (under_ccField hn i)) ?_
  refine underAll_enabled (under_mapValue (under_bccField hn i)) ?_
  refine underAll_enabled (under_mapValue (under_messageIdField hn i)) ?_
  refine underAll_enabled (under_mapValue (under_headerLine (under_many1 (under_messageId hn)) i)) ?_
  refine underAll_enabled (under_mapValue (under_headerLine (under_many1 (under_messageId hn)) i)) ?_
  refine underAll_enabled (under_mapValue (under_headerLine under_textValue i)) ?_
  refine underAll_enabled (under_mapValue (under_headerLine under_textValue i)) ?_
  refine underAll_enabled (under_mapValue (under_mimeVersion hn i)) ?_
  refine underAll_enabled (under_mapValue (under_contentType hn i)) ?_
  refine underAll_enabled (under_mapValue (under_contentTransferEncoding hn i)) ?_
  refine underAll_enabled (under_mapValue (under_contentId hn i)) ?_
  refine underAll_enabled (under_mapValue (under_contentDescription i)) ?_
  refine underAll_enabled (under_mapValue (under_contentDisposition hn i)) ?_
  refine underAll_enabled (under_mapValue (under_headerLine (under_keywordList hn) i)) ?_
  exact .cons (under_mapValue (under_unknown i)) .nil

theorem under_fields (i : Bytes) : Under (fields c i) (fields (c.roomy n b o ho) i) := by
  refine .bind ?_ fun _ _ => .bind (under_many (under_field hn) _) fun _ _ => .refl _
  unfold traces
  rw [roomy_feat]
  split
  · exact under_many (under_traceBlock hn) i
  · exact .refl _

omit hn in
theorem Under.elim {x y : Outcome α} (h : Under x y) (he : ∀ e, x ≠ .err e) : (∃ k, x = .abort k) ∨ x = y := by
  cases h with
  | abort => exact .inl ⟨_, rfl⟩
  | ok => exact .inr rfl
  | err => exact absurd rfl (he _)

/-- A message is read in the same way, unless the program is aborted. -/
theorem roomy_email (i : Bytes) : (∃ k, Email.parse c i = .abort k) ∨ Email.parse c i = Email.parse (c.roomy n b o ho) i := by
  rcases (under_fields (b := b) (o := o) (ho := ho) hn i).elim (fields_no_err i) with ⟨k, h⟩ | h
  · left
    refine ⟨k, ?_⟩
    unfold Email.parse parseMessage
    rw [h]
    rfl
  · right
    unfold Email.parse parseMessage
    rw [h]
    rfl

theorem under_entityHeader (i : Bytes) : Under (entityHeader c i) (entityHeader (c.roomy n b o ho) i) :=
  under_matchParsers
    (.cons (under_mapValue (under_contentTransferEncoding hn i))
    (.cons (under_mapValue (under_contentType hn i))
    (.cons (under_mapValue (under_contentId hn i))
    (.cons (under_mapValue (under_contentDescription i))
    (.cons (under_mapValue (under_contentDisposition hn i))
    (.cons (under_mapValue (under_unknown i)) .nil))))))

theorem roomy_rawEntity (i : Bytes) : (∃ k, rawEntity c i = .abort k) ∨ rawEntity c i = rawEntity (c.roomy n b o ho) i := by
  rcases (under_many (under_entityHeader (b := b) (o := o) (ho := ho) hn) i).elim (many_no_err i) with ⟨k, h⟩ | h
  · left
    refine ⟨k, ?_⟩
    unfold rawEntity headerPart
    rw [h]
    rfl
  · right
    unfold rawEntity headerPart
    rw [h]

theorem roomy_rawEntities : ∀ ps, (∃ k, rawEntities c ps = .abort k) ∨ rawEntities c ps = rawEntities (c.roomy n b o ho) ps
  | [] => .inr rfl
  | p :: ps => by
    unfold rawEntities
    rcases roomy_rawEntity (b := b) (o := o) (ho := ho) hn p with ⟨k, h⟩ | h
    · exact .inl ⟨k, by rw [h]; rfl⟩
    rw [← h]
    cases rawEntity c p with
    | abort k => exact .inl ⟨k, rfl⟩
    | err e => exact .inr rfl
    | ok e =>
      simp only [ok_bind]
      rcases roomy_rawEntities ps with ⟨k, h⟩ | h
      · exact .inl ⟨k, by rw [h]; rfl⟩
      · exact .inr (by rw [h])

theorem roomy_parseMultipart (i : Bytes) (ps : Params) :
    (∃ k, parseMultipart c i ps = .abort k) ∨ parseMultipart c i ps = parseMultipart (c.roomy n b o ho) i ps := by
  unfold parseMultipart
  cases ps (b! "boundary") with
  | none => exact .inr rfl
  | some d =>
    dsimp only
    cases multipartParts i d with
    | abort k => exact .inl ⟨k, rfl⟩
    | err e => exact .inr rfl
    | ok parts => exact roomy_rawEntities hn parts

theorem roomy_parse (raw : RawEntity) : (∃ k, raw.parse c = .abort k) ∨ raw.parse c = raw.parse (c.roomy n b o ho) := by
  unfold RawEntity.parse
  split
  · rcases roomy_parseMultipart (b := b) (o := o) (ho := ho) hn raw.value raw.parameters with ⟨k, h⟩ | h
    · exact .inl ⟨k, by rw [h]; rfl⟩
    · exact .inr (by rw [h])
  · exact .inr rfl

end

end EmailParser
