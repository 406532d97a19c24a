import Verif.Proofs.Timed.Erase
import Verif.Proofs.Overflow
/-
How many steps a list of addresses takes in which comments seem to begin: `=?utf-8?q?x(?=:;` is a group
without members whose name is an encoded word, but to find that it is not a mailbox the parser reads a
comment from the parenthesis to the end of the line.
-/
namespace EmailParser
namespace Timed

set_option maxRecDepth 100000

section

variable {α β : Type}

theorem bind_ok {x : Timed α} {a : α} {n : Nat} (f : α → Timed β) (h : x = ⟨.ok a, n⟩) :
    (x >>= f) = ⟨(f a).out, n + (f a).cost⟩ := by
  subst h
  rfl

theorem bind_err {x : Timed α} {e : Error} {n : Nat} (f : α → Timed β) (h : x = ⟨.err e, n⟩) :
    (x >>= f) = ⟨.err e, n⟩ := by
  subst h
  rfl

theorem on_eq {x : Timed α} {o : Outcome α} {n : Nat} (f : Outcome α → Timed β) (h : x = ⟨o, n⟩) :
    x.on f = ⟨(f o).out, n + (f o).cost⟩ := by
  subst h
  rfl

end

/-- The group. -/
def openGroup : Bytes := b! "=?utf-8?q?x(?=:;,"

/-- `k` groups, an address, and the next line. -/
def openGroups (z : Bytes) (k : Nat) : Bytes := (List.replicate k openGroup).flatten ++ (b! "a@b\r\nF" ++ z)

theorem openGroups_succ (z : Bytes) (k : Nat) : openGroups z (k + 1) = openGroup ++ openGroups z k := by
  unfold openGroups
  rw [List.replicate_succ, List.flatten_cons, List.append_assoc]

variable {c : Cfg} {t z : Bytes}

/-- The error at the end of a comment that is not closed. -/
def notClosed : Error := .explicit "TAG ERROR: A comment must end with a `)`."

theorem comment_last (room : Nat) : comment (room + 1) (b! "(?=:;,a@b\r\nF" ++ z) = ⟨.err notClosed, 43⟩ := by
  cases room <;> rfl

theorem ccontent_open {f : Bytes → TRes Bytes} {n : Nat} {e : Error} (h : f (b! "(?=:;," ++ t) = ⟨.err e, n⟩) :
    ccontent f (b! "(?=:;," ++ t) = ⟨.err (.unknown "No match arm is matching the data"), n + 4⟩ := by
  unfold ccontent
  simp only [matchParsers]
  rw [on_eq _ (show (takeWhile1 (b! "(?=:;," ++ t) isCtext >>= _) =
      ⟨.err (.unknown "Expected at least one character matching"), 2⟩ from rfl)]
  dsimp only
  rw [on_eq _ (show quotedPair (b! "(?=:;," ++ t) =
      ⟨.err (.explicit "TAG ERROR: A quoted pair must start with a `\\`."), 2⟩ from rfl)]
  dsimp only
  rw [on_eq _ h]
  simp only [err, Timed.mk.injEq]
  exact ⟨trivial, by omega⟩

theorem comment_loop {f : Bytes → TRes Bytes} {n : Nat} {e : Error} (fuel : Nat)
    (h : f (b! "(?=:;," ++ t) = ⟨.err e, n⟩) :
    ignoreManyLoop (fun input => pair input (fun i => optional i fws) (ccontent f)) (fuel + 2)
      (b! "?=:;," ++ (openGroup ++ t)) = ⟨.ok (b! "(?=:;," ++ t, ()), n + 38⟩ := by
  have h1 : pair (b! "?=:;," ++ (openGroup ++ t)) (fun i => optional i fws) (ccontent f) =
      ⟨.ok (b! "(?=:;," ++ t, (none, b! "?=:;,=?utf-8?q?x")), 25⟩ := rfl
  have h2 : pair (b! "(?=:;," ++ t) (fun i => optional i fws) (ccontent f) =
      ⟨.err (.unknown "No match arm is matching the data"), n + 11⟩ := by
    unfold pair
    rw [bind_ok _ (show optional _ fws = ⟨.ok (b! "(?=:;," ++ t, none), 7⟩ from rfl)]
    dsimp only
    rw [bind_err _ (ccontent_open h)]
    simp only [Timed.mk.injEq]
    exact ⟨trivial, by omega⟩
  unfold ignoreManyLoop
  rw [bind_ok _ (show tick 1 = ⟨.ok (), 1⟩ from rfl), on_eq _ h1]
  dsimp only
  unfold ignoreManyLoop
  rw [bind_ok _ (show tick 1 = ⟨.ok (), 1⟩ from rfl), on_eq _ h2]
  simp only [ok, Timed.mk.injEq]
  exact ⟨trivial, by omega⟩

theorem comment_next {room n : Nat} (h : comment room (b! "(?=:;," ++ t) = ⟨.err notClosed, n⟩) :
    comment (room + 1) (b! "(?=:;," ++ (openGroup ++ t)) = ⟨.err notClosed, n + 49⟩ := by
  unfold comment
  rw [bind_ok _ (show tag _ _ _ = ⟨.ok (b! "?=:;," ++ (openGroup ++ t), ()), 2⟩ from rfl)]
  dsimp only
  unfold ignoreMany
  obtain ⟨fuel, hf⟩ : ∃ fuel, (b! "?=:;," ++ (openGroup ++ t)).length + 1 = fuel + 2 := ⟨_, rfl⟩
  rw [hf, bind_ok _ (comment_loop fuel h)]
  dsimp only
  rw [bind_ok _ (show optional _ fws = ⟨.ok (b! "(?=:;," ++ t, none), 7⟩ from rfl)]
  dsimp only
  rw [bind_err _ (show tag _ _ _ = ⟨.err notClosed, 2⟩ from rfl)]
  simp only [Timed.mk.injEq]
  exact ⟨trivial, by omega⟩

/-- The comment is read through all the groups that follow. -/
theorem comment_open (k : Nat) : ∀ room, k < room →
    comment room (b! "(?=:;," ++ openGroups z k) = ⟨.err notClosed, 49 * k + 43⟩ := by
  induction k with
  | zero =>
    intro room h
    obtain ⟨room, rfl⟩ : ∃ r, room = r + 1 := ⟨room - 1, by omega⟩
    exact comment_last room
  | succ k ih =>
    intro room h
    obtain ⟨room, rfl⟩ : ∃ r, room = r + 1 := ⟨room - 1, by omega⟩
    rw [openGroups_succ, comment_next (ih room (by omega))]
    simp only [Timed.mk.injEq]
    exact ⟨trivial, by omega⟩

theorem skipCfws_open {n : Nat} {e : Error} (h : comment c.stack (b! "(?=:;," ++ t) = ⟨.err e, n⟩) :
    skipCfws c (b! "(?=:;," ++ t) = ⟨.ok (b! "(?=:;," ++ t), n + 14⟩ := by
  have h1 : realCfws c (b! "(?=:;," ++ t) = ⟨.err (.unknown "Expected at least one comment"), n + 7⟩ := by
    unfold realCfws
    rw [bind_ok _ (show optional _ fws = ⟨.ok (b! "(?=:;," ++ t, none), 7⟩ from rfl)]
    dsimp only
    rw [on_eq _ h]
    simp only [err, Timed.mk.injEq]
    exact ⟨trivial, by omega⟩
  have h2 : fws (b! "(?=:;," ++ t) = ⟨.err (.unknown "Expected at least one character matching"), 7⟩ := rfl
  unfold skipCfws cfws
  have h3 : matchParsers (b! "(?=:;," ++ t) [realCfws c, fws] =
      ⟨.err (.unknown "No match arm is matching the data"), n + 14⟩ := by
    simp only [matchParsers]
    rw [on_eq _ h1]
    dsimp only
    rw [on_eq _ h2]
    rfl
  rw [on_eq _ h3]
  rfl

theorem skipCfws_none {room : Nat} (hs : c.stack = room + 1) :
    skipCfws c (openGroup ++ t) = ⟨.ok (openGroup ++ t), 16⟩ ∧
    skipCfws c (b! ":;," ++ t) = ⟨.ok (b! ":;," ++ t), 16⟩ ∧
    skipCfws c (b! ";," ++ t) = ⟨.ok (b! ";," ++ t), 16⟩ ∧
    skipCfws c (b! "," ++ t) = ⟨.ok (b! "," ++ t), 16⟩ := by
  obtain ⟨feat, oc, st, _⟩ := c
  dsimp only at hs
  subst hs
  exact ⟨rfl, rfl, rfl, rfl⟩

theorem encodedWord_open : encodedWord c (openGroup ++ t) = ⟨.ok (b! ":;," ++ t, b! "x("), 26⟩ := by
  unfold encodedWord
  rw [bind_ok _ (show tag _ _ _ = ⟨.ok (b! "utf-8?q?x(?=:;," ++ t, ()), 3⟩ from rfl)]
  dsimp only
  rw [bind_ok _ (show charset _ = ⟨.ok (b! "?q?x(?=:;," ++ t, b! "utf-8"), 7⟩ from rfl)]
  dsimp only
  rw [bind_ok _ (show optional _ _ = ⟨.ok (b! "?q?x(?=:;," ++ t, none), 2⟩ from rfl)]
  dsimp only
  rw [bind_ok _ (show tag _ _ _ = ⟨.ok (b! "q?x(?=:;," ++ t, ()), 2⟩ from rfl)]
  dsimp only
  rw [bind_ok _ (show encoding _ = ⟨.ok (b! "?x(?=:;," ++ t, b! "q"), 3⟩ from rfl)]
  dsimp only
  rw [bind_ok _ (show tag _ _ _ = ⟨.ok (b! "x(?=:;," ++ t, ()), 2⟩ from rfl)]
  dsimp only
  rw [bind_ok _ (show encodedText _ = ⟨.ok (b! "?=:;," ++ t, b! "x("), 4⟩ from rfl)]
  dsimp only
  rw [bind_ok _ (show tag _ _ _ = ⟨.ok (b! ":;," ++ t, ()), 3⟩ from rfl)]
  dsimp only
  rw [bind_ok _ (show lift (decodeWord c (b! "utf-8") (b! "q") (b! "x(")) = ⟨.ok (b! "x("), 0⟩ from rfl)]
  rfl

theorem phraseWord_open (hm : c.feat.mime = true) :
    phraseWord c (openGroup ++ t) = ⟨.ok (b! ":;," ++ t, b! "x("), 33⟩ := by
  unfold phraseWord
  rw [if_pos hm]
  simp only [matchParsers]
  rw [on_eq _ (bind_ok _ (show optional _ fws = ⟨.ok (openGroup ++ t, none), 7⟩ from rfl))]
  dsimp only
  rw [encodedWord_open]
  rfl

theorem phraseWord_colon {room : Nat} (hs : c.stack = room + 1) (hm : c.feat.mime = true) :
    phraseWord c (b! ":;," ++ t) = ⟨.err (.unknown "No match arm is matching the data"), 45⟩ := by
  unfold phraseWord
  rw [if_pos hm]
  obtain ⟨feat, oc, st, _⟩ := c
  dsimp only at hs
  subst hs
  rfl

theorem phrase_open {room : Nat} (hs : c.stack = room + 1) (hm : c.feat.mime = true) :
    phrase c (openGroup ++ t) = ⟨.ok (b! ":;," ++ t, [b! "x("]), 79⟩ := by
  unfold phrase many1
  rw [bind_ok _ (phraseWord_open hm)]
  dsimp only
  unfold manyLoop
  rw [bind_ok _ (show tick 1 = ⟨.ok (), 1⟩ from rfl), on_eq _ (phraseWord_colon hs hm)]
  rfl

theorem nameAddr_open {room : Nat} (hs : c.stack = room + 1) (hm : c.feat.mime = true) :
    nameAddr c (openGroup ++ t) = ⟨.err (.explicit "TAG ERROR: A angle_addr must start with a `<`."), 97⟩ := by
  have h1 : optional (openGroup ++ t) (phrase c) = ⟨.ok (b! ":;," ++ t, some [b! "x("]), 79⟩ := by
    unfold optional
    rw [on_eq _ (phrase_open hs hm)]
    rfl
  unfold nameAddr
  have h : angleAddr c (b! ":;," ++ t) = ⟨.err (.explicit "TAG ERROR: A angle_addr must start with a `<`."), 18⟩ := by
    unfold angleAddr
    rw [bind_ok _ (skipCfws_none hs).2.1]
    rfl
  rw [bind_ok _ h1]
  dsimp only
  rw [bind_err _ h]
  rfl

theorem dotAtom_open {n room : Nat} {e : Error} (hs : c.stack = room + 1)
    (h : comment c.stack (b! "(?=:;," ++ t) = ⟨.err e, n⟩) :
    dotAtom c (openGroup ++ t) = ⟨.ok (b! "(?=:;," ++ t, b! "=?utf-8?q?x"), n + 45⟩ := by
  unfold dotAtom
  rw [bind_ok _ (skipCfws_none hs).1,
    bind_ok _ (show dotAtomText c (openGroup ++ t) = ⟨.ok (b! "(?=:;," ++ t, b! "=?utf-8?q?x"), 15⟩ from rfl)]
  dsimp only
  rw [bind_ok _ (skipCfws_open h)]
  simp only [ok, Timed.mk.injEq]
  exact ⟨trivial, by omega⟩

theorem mailbox_open {n room : Nat} {e : Error} (hs : c.stack = room + 1) (hm : c.feat.mime = true)
    (h : comment c.stack (b! "(?=:;," ++ t) = ⟨.err e, n⟩) :
    mailbox c (openGroup ++ t) = ⟨.err (.unknown "No match arm is matching the data"), n + 144⟩ := by
  have h1 : addrSpec c (openGroup ++ t) =
      ⟨.err (.explicit "TAG ERROR: An address local part must be followed by a `@`."), n + 47⟩ := by
    unfold addrSpec localPart
    simp only [matchParsers]
    rw [bind_ok _ (on_eq _ (dotAtom_open hs h))]
    dsimp only [ok]
    rw [bind_err _ (show tag _ _ _ = ⟨.err (.explicit "TAG ERROR: An address local part must be followed by a `@`."), 2⟩ from rfl)]
    rfl
  unfold mailbox
  simp only [matchParsers]
  rw [on_eq _ (nameAddr_open hs hm)]
  dsimp only
  rw [on_eq _ (bind_err _ h1)]
  simp only [err, Timed.mk.injEq]
  exact ⟨trivial, by omega⟩

theorem groupList_open {room : Nat} (hs : c.stack = room + 1) (hm : c.feat.mime = true) :
    groupList c (b! ";," ++ t) = ⟨.ok (b! ";," ++ t, []), 114⟩ := by
  obtain ⟨feat, oc, st, _⟩ := c
  obtain ⟨⟩ := feat
  dsimp only at hs hm
  subst hs hm
  rfl

theorem group_open {room : Nat} (hs : c.stack = room + 1) (hm : c.feat.mime = true) :
    group c (openGroup ++ t) = ⟨.ok (b! "," ++ t, ([b! "x("], [])), 213⟩ := by
  unfold group
  rw [bind_ok _ (phrase_open hs hm)]
  dsimp only
  rw [bind_ok _ (show tag _ _ _ = ⟨.ok (b! ";," ++ t, ()), 2⟩ from rfl)]
  dsimp only
  rw [bind_ok _ (groupList_open hs hm)]
  dsimp only
  rw [bind_ok _ (show tag _ _ _ = ⟨.ok (b! "," ++ t, ()), 2⟩ from rfl)]
  dsimp only
  rw [bind_ok _ (skipCfws_none hs).2.2.2]
  rfl

/-- Each group costs as many steps as there are bytes behind it, and more. -/
theorem address_open {k : Nat} (hs : k < c.stack) (hm : c.feat.mime = true) :
    address c (openGroup ++ openGroups z k) = ⟨.ok (b! "," ++ openGroups z k, .group [b! "x("] []), 49 * k + 400⟩ := by
  obtain ⟨room, hr⟩ : ∃ r, c.stack = r + 1 := ⟨c.stack - 1, by omega⟩
  unfold address
  rw [on_eq _ (mailbox_open hr hm (comment_open k c.stack hs))]
  dsimp only
  rw [on_eq _ (group_open hr hm)]
  simp only [ok]

theorem address_last {room : Nat} (hs : c.stack = room + 1) (hm : c.feat.mime = true) :
    address c (b! "a@b\r\nF" ++ z) = ⟨.ok (b! "\r\nF" ++ z, .mailbox ⟨none, ⟨b! "a", b! "b"⟩⟩), 185⟩ := by
  obtain ⟨feat, oc, st, _⟩ := c
  obtain ⟨⟩ := feat
  dsimp only at hs hm
  subst hs hm
  rfl

theorem prefixed_comma {α : Type} (p : Bytes → TRes α) :
    prefixed (b! "," ++ t) p (b! ",") = ⟨(p t).out, 2 + (p t).cost⟩ := by
  have h : prefixed (b! "," ++ t) p (b! ",") = ⟨(p t).out, 2 + (0 + (p t).cost)⟩ := rfl
  rw [h, Nat.zero_add]

theorem addresses_open (hm : c.feat.mime = true) (k : Nat) (hs : k < c.stack) : ∃ n, 2 * n = 49 * (k * k) + 757 * k + 382 ∧
    ∀ fuel, manyLoop (fun input => prefixed input (address c) (b! ",")) (fuel + k + 2) (b! "," ++ openGroups z k) =
      ⟨.ok (b! "\r\nF" ++ z, List.replicate k (.group [b! "x("] []) ++ [.mailbox ⟨none, ⟨b! "a", b! "b"⟩⟩]), n⟩ := by
  obtain ⟨room, hr⟩ : ∃ r, c.stack = r + 1 := ⟨c.stack - 1, by omega⟩
  induction k with
  | zero =>
    refine ⟨191, rfl, fun fuel => ?_⟩
    have h : prefixed (b! "," ++ openGroups z 0) (address c) (b! ",") = ⟨.ok (b! "\r\nF" ++ z, .mailbox ⟨none, ⟨b! "a", b! "b"⟩⟩), 187⟩ := by
      rw [prefixed_comma, show openGroups z 0 = b! "a@b\r\nF" ++ z from rfl, address_last hr hm]
      rfl
    unfold manyLoop
    rw [bind_ok _ (show tick 1 = ⟨.ok (), 1⟩ from rfl), on_eq _ h]
    rfl
  | succ k ih =>
    obtain ⟨n, hn, ih⟩ := ih (by omega)
    have e1 : (k + 1) * (k + 1) = k * k + 2 * k + 1 := by rw [Nat.add_mul, Nat.mul_add]; omega
    refine ⟨n + 49 * k + 403, by omega, fun fuel => ?_⟩
    have h : prefixed (b! "," ++ openGroups z (k + 1)) (address c) (b! ",") =
        ⟨.ok (b! "," ++ openGroups z k, .group [b! "x("] []), 49 * k + 402⟩ := by
      rw [prefixed_comma, openGroups_succ, address_open (by omega) hm]
      simp only [Timed.mk.injEq]
      exact ⟨trivial, by omega⟩
    rw [← Nat.add_assoc, show fuel + k + 1 + 2 = (fuel + k + 2) + 1 by omega]
    unfold manyLoop
    rw [bind_ok _ (show tick 1 = ⟨.ok (), 1⟩ from rfl), on_eq _ h]
    dsimp only
    rw [bind_ok _ (ih fuel)]
    simp only [ok, Timed.mk.injEq]
    exact ⟨rfl, by omega⟩

theorem openGroups_length (k : Nat) : (openGroups z k).length = 17 * k + 6 + z.length := by
  induction k with
  | zero =>
    show z.length + 6 = _
    omega
  | succ k ih =>
    rw [openGroups_succ, List.length_append, ih, show openGroup.length = 17 from rfl]
    omega

theorem addressList_open (hm : c.feat.mime = true) (k : Nat) (hs : k < c.stack) : ∃ n, 2 * n = 49 * (k * k) + 757 * k + 376 ∧
    addressList c (openGroups z k) =
      ⟨.ok (b! "\r\nF" ++ z, List.replicate k (.group [b! "x("] []) ++ [.mailbox ⟨none, ⟨b! "a", b! "b"⟩⟩]), n⟩ := by
  obtain ⟨room, hr⟩ : ∃ r, c.stack = r + 1 := ⟨c.stack - 1, by omega⟩
  cases k with
  | zero =>
    refine ⟨188, rfl, ?_⟩
    unfold addressList
    rw [bind_ok _ (show address c (openGroups z 0) = _ from address_last hr hm)]
    rfl
  | succ k =>
    obtain ⟨n, hn, h⟩ := addresses_open hm k (by omega)
    have e1 : (k + 1) * (k + 1) = k * k + 2 * k + 1 := by rw [Nat.add_mul, Nat.mul_add]; omega
    refine ⟨49 * k + 400 + n, by omega, ?_⟩
    unfold addressList
    rw [openGroups_succ, bind_ok _ (address_open (by omega) hm)]
    dsimp only
    unfold many
    rw [List.length_append, openGroups_length, List.length_singleton,
      show 1 + (17 * k + 6 + z.length) + 1 = (16 * k + z.length + 6) + k + 2 by omega, bind_ok _ (h _)]
    rfl

/-! ### The field and the message -/

theorem le_bind {α β : Type} (x : Timed α) (f : α → Timed β) : x.cost ≤ (x >>= f).cost := Nat.le_add_right ..

theorem le_bind_ok {α β : Type} {x : Timed α} {a : α} (f : α → Timed β) (h : x.out = .ok a) :
    (f a).cost ≤ (x >>= f).cost := by
  show _ ≤ x.cost + _
  rw [h]
  exact Nat.le_add_left ..

theorem le_matchParsers {α : Type} {i : Bytes} {p : Bytes → TRes α} {ps : List (Bytes → TRes α)} {b : Bool}
    (h : ∃ e, (p i).out = .err e) : (matchParsers i ps).cost ≤ (matchParsers i (enabled b p ++ ps)).cost := by
  obtain ⟨e, h⟩ := h
  cases b
  · exact Nat.le_refl _
  · show _ ≤ (p i).cost + _
    rw [h]
    exact Nat.le_add_left ..

theorem mapValue_err {α β : Type} {p : Bytes → TRes α} {f : α → β} {i : Bytes} (h : ∃ e, (p i).out = .err e) :
    ∃ e, (mapValue f p i).out = .err e := by
  obtain ⟨e, h⟩ := h
  unfold mapValue
  rw [bind_out, h]
  exact ⟨e, rfl⟩

theorem toField_open (hm : c.feat.mime = true) (k : Nat) (hs : k < c.stack) :
    49 * (k * k) + 757 * k ≤ 2 * (toField c (b! "To:" ++ openGroups z k)).cost := by
  obtain ⟨n, hn, h⟩ := addressList_open (z := z) hm k hs
  have h1 : (tagNoCase (b! "To:" ++ openGroups z k) (b! "To:") (b! "tO:")
      "TAG NO CASE ERROR: Header name (To) does not match.").out = .ok (openGroups z k, ()) := by
    rw [tagNoCase_out]
    exact tagNoCase_append (e := b! "To:") _ _ rfl
  unfold toField headerLine
  refine Nat.le_trans ?_ (Nat.mul_le_mul_left 2 (le_bind_ok _ h1))
  refine Nat.le_trans ?_ (Nat.mul_le_mul_left 2 (le_bind _ _))
  rw [h]
  dsimp only
  omega

theorem other_name {name : Bytes} (h : (name.map asciiLower).head? ≠ some 116) (h' : name ≠ []) (t : Bytes) :
    ¬ (name.map asciiLower <+: (b! "To:" ++ t).map asciiLower) := by
  cases name with
  | nil => exact absurd rfl h'
  | cons x n =>
    intro hp
    apply h
    exact congrArg some (List.cons_prefix_cons.mp hp).1

theorem field_open (hm : c.feat.mime = true) (ht : c.feat.to = true) (k : Nat) (hs : k < c.stack) :
    49 * (k * k) + 757 * k ≤ 2 * (field c (b! "To:" ++ openGroups z k)).cost := by
  refine Nat.le_trans (toField_open (z := z) hm k hs) (Nat.mul_le_mul_left 2 ?_)
  unfold field fieldParsers
  simp only [List.append_assoc]
  refine Nat.le_trans ?_ (le_matchParsers (mapValue_err ?_))
  · refine Nat.le_trans ?_ (le_matchParsers (mapValue_err ?_))
    · refine Nat.le_trans ?_ (le_matchParsers (mapValue_err ?_))
      · refine Nat.le_trans ?_ (le_matchParsers (mapValue_err ?_))
        · rw [ht]
          refine Nat.le_trans (le_bind _ _) (Nat.le_add_right ..)
        · rw [replyToField_of]
          exact headerLine_other rfl (other_name (by decide) (by decide) _)
      · rw [senderField_of]
        exact headerLine_other rfl (other_name (by decide) (by decide) _)
    · rw [fromField_of]
      exact headerLine_other rfl (other_name (by decide) (by decide) _)
  · rw [dateField_of]
    exact headerLine_other rfl (other_name (by decide) (by decide) _)

theorem traces_open (t : Bytes) : (traces c (b! "To:" ++ t)).out = .ok (b! "To:" ++ t, []) := by
  rw [traces_out]
  obtain ⟨e, he⟩ : ∃ x, EmailParser.returnPath c (b! "To:" ++ t) = .err x := headerLine_other rfl (other_name (by decide) (by decide) _)
  obtain ⟨e', he'⟩ : ∃ x, EmailParser.received c (b! "To:" ++ t) = .err x := headerLine_other rfl (other_name (by decide) (by decide) _)
  have h : EmailParser.traceBlock c (b! "To:" ++ t) = .err e' := by
    unfold EmailParser.traceBlock EmailParser.trace EmailParser.optional EmailParser.many1
    rw [he]
    show (((EmailParser.received c (b! "To:" ++ t)) >>= _) >>= _) >>= _ = _
    rw [he']
    rfl
  unfold EmailParser.traces EmailParser.many EmailParser.manyLoop
  split
  · rw [h]
  · rfl

theorem parse_open (hm : c.feat.mime = true) (ht : c.feat.to = true) (k : Nat) (hs : k < c.stack) :
    49 * (k * k) + 757 * k ≤ 2 * (parse c (b! "To:" ++ openGroups z k)).cost := by
  refine Nat.le_trans (field_open (z := z) hm ht k hs) (Nat.mul_le_mul_left 2 ?_)
  unfold parse parseMessage fields
  refine Nat.le_trans ?_ (le_bind _ _)
  refine Nat.le_trans ?_ (le_bind _ _)
  refine Nat.le_trans ?_ (le_bind_ok _ (traces_open _))
  refine Nat.le_trans ?_ (le_bind _ _)
  unfold many manyLoop
  refine Nat.le_trans ?_ (le_bind_ok _ (tick_out 1))
  exact Nat.le_add_right ..

end Timed
end EmailParser
