import Verif.Proofs.Join
/-
C96: lists of addresses, keywords and identifiers can be put together and taken apart.
-/
namespace EmailParser
open Spec

variable (c : Cfg)

/-- If two lines of a header with a list are read, so is the line with both texts and a comma between them, as the list
of all members. -/
theorem C96_join (name x w l name' x' w' l' t : Bytes) (f f' g : Field) (h : HeaderText name x w l)
    (h' : HeaderText name' x' w' l') (hp : Plain c name w) (hp' : Plain c name' w') (ht : Stops wsp t)
    (ho : headerOf f = some (name.map asciiLower)) (ho' : headerOf f' = some (name'.map asciiLower))
    (hf : field c (l ++ t) = .ok (t, f)) (hf' : field c (l' ++ t) = .ok (t, f')) (hg : together f f' = some g) :
    field c (name ++ b! ":" ++ (w ++ b! "," ++ w') ++ CRLF ++ t) = .ok (t, g) := by
  obtain ⟨-, hr, hv⟩ := read_value h hp ht hf ho
  obtain ⟨-, -, hv'⟩ := read_value h' hp' ht hf' ho'
  obtain ⟨hj, hn⟩ := value_join hv hv' hg
  have := known_field (r := t) (hn.trans ho) hr rfl hj ht
  simpa using this

/-- Conversely the text of a list that is read is a number of texts with commas between them, one for each member, and a
line with one of these texts is read as that member, unless the text ends with white space. -/
theorem C96_apart (name x w l t : Bytes) (f : Field) (h : HeaderText name x w l) (hp : Plain c name w) (ht : Stops wsp t)
    (ho : headerOf f = some (name.map asciiLower)) (hf : field c (l ++ t) = .ok (t, f)) (hne : singles f ≠ []) :
    ∃ ws : List Bytes, w = withCommas ws ∧ ws.length = (singles f).length ∧
      ∀ p ∈ ws.zip (singles f), Solid p.1 → ∀ s, Stops wsp s →
        field c (name ++ b! ":" ++ p.1 ++ CRLF ++ s) = .ok (s, p.2) := by
  obtain ⟨-, hr, hv⟩ := read_value h hp ht hf ho
  obtain ⟨ws, e, hl, hz⟩ := value_apart hv hne
  refine ⟨ws, e, hl, fun p hm hs s hs' => ?_⟩
  obtain ⟨h1, h2⟩ := hz p hm
  exact known_field (h1.trans ho) hr rfl (h2 hs) hs'

/-- Lists of identifiers are put together without a comma. -/
theorem C96_identifiers (name x w l name' x' w' l' y l₂ t : Bytes) (f f' g : Field) (h : HeaderText name x w l)
    (h' : HeaderText name' x' w' l') (h₂ : HeaderText name y (w ++ w') l₂) (hp : Plain c name (w ++ w'))
    (hp' : Plain c name' w') (ht : Stops wsp t)
    (ho : headerOf f = some (name.map asciiLower)) (ho' : headerOf f' = some (name'.map asciiLower))
    (hf : field c (l ++ t) = .ok (t, f)) (hf' : field c (l' ++ t) = .ok (t, f')) (hg : identifiersTogether f f' = some g) :
    field c (l₂ ++ t) = .ok (t, g) := by
  have hp₁ : Plain c name w :=
    ⟨Nat.le_trans (by simp [List.count_append]) hp.depth, fun hm => ⟨(hp.mime hm).1,
      fun hi => (hp.mime hm).2.1 (hi.trans ⟨[], w', by simp⟩),
      fun hc => Nat.lt_of_le_of_lt (by simp [List.count_append]) ((hp.mime hm).2.2 hc)⟩⟩
  obtain ⟨hl, hr, hv⟩ := read_value h hp₁ ht hf ho
  obtain ⟨hl', -, hv'⟩ := read_value h' hp' ht hf' ho'
  have hw := hp.fine h₂.folding
  have solid : Solid w → Solid w' → Solid (w ++ w') := by
    intro h1 h2 u b e
    rcases List.eq_nil_or_concat w' with rfl | ⟨z, b', rfl⟩
    · exact h1 u b (by simpa using e)
    · have e' : (w ++ z) ++ [b'] = u ++ [b] := by simpa using e
      have := (List.append_inj' e' rfl).2
      cases this
      exact h2 z _ (by simp)
  have hj : ValueL c (w ++ w') g ∧ headerOf g = headerOf f := by
    unfold identifiersTogether at hg
    split at hg <;> cases hg
    · exact ⟨⟨messageIds_exact (messageIds_join
        (header_value (nm := b! "In-Reply-To") hl.2 h.text (Option.some.inj ho).symm)
        (header_value (nm := b! "In-Reply-To") hl'.2 h'.text (Option.some.inj ho').symm)) hw, solid hv.2 hv'.2⟩, rfl⟩
    · exact ⟨⟨messageIds_exact (messageIds_join
        (header_value (nm := b! "References") hl.2 h.text (Option.some.inj ho).symm)
        (header_value (nm := b! "References") hl'.2 h'.text (Option.some.inj ho').symm)) hw, solid hv.2 hv'.2⟩, rfl⟩
  have := known_field (r := t) (hj.2.trans ho) hr rfl hj.1 ht
  rwa [← h₂.text] at this

/-- Lists of identifiers are taken apart at their brackets. -/
theorem C96_identifiers_apart (name x w l t : Bytes) (f : Field) (h : HeaderText name x w l) (hp : Plain c name w)
    (ht : Stops wsp t) (ho : headerOf f = some (name.map asciiLower)) (hf : field c (l ++ t) = .ok (t, f))
    (hne : identifierSingles f ≠ []) :
    ∃ ws : List Bytes, w = ws.flatten ∧ ws.length = (identifierSingles f).length ∧
      ∀ p ∈ ws.zip (identifierSingles f), Solid p.1 → ∀ s, Stops wsp s →
        field c (name ++ b! ":" ++ p.1 ++ CRLF ++ s) = .ok (s, p.2) := by
  obtain ⟨-, hr, hv⟩ := read_value h hp ht hf ho
  obtain ⟨ws, e, hl, hz⟩ := identifiers_apart hv hne
  refine ⟨ws, e, hl, fun p hm hs s hs' => ?_⟩
  obtain ⟨h1, h2⟩ := hz p hm
  exact known_field (h1.trans ho) hr rfl (h2 hs) hs'

/-! ### Examples -/

private def reads (c : Cfg) (l : Bytes) : Option (Bytes × Option (List Mailbox)) :=
  match field c l with
  | .ok (t, .from v) => some (t, some v)
  | .ok (t, _) => some (t, none)
  | _ => none

/-- Without the condition on `=?` this fails: two texts without an encoded word become one that is an encoded word and an
address. -/
theorem C96_encoded :
    (∃ f f' g, field (Cfg.concrete .full) (b! "From:=?utf-8?q?a@b\r\n") = .ok ([], f) ∧
      field (Cfg.concrete .full) (b! "From:?=<c@d>\r\n") = .ok ([], f') ∧ together f f' = some g ∧
      field (Cfg.concrete .full) (b! "From:=?utf-8?q?a@b,?=<c@d>\r\n") ≠ .ok ([], g)) := by
  have h1 : reads (Cfg.concrete .full) (b! "From:=?utf-8?q?a@b\r\n") = some ([], some [⟨none, b! "=?utf-8?q?a", b! "b"⟩]) := by
    decide +kernel
  have h2 : reads (Cfg.concrete .full) (b! "From:?=<c@d>\r\n") = some ([], some [⟨some [b! "?="], b! "c", b! "d"⟩]) := by
    decide +kernel
  have h3 : reads (Cfg.concrete .full) (b! "From:=?utf-8?q?a@b,?=<c@d>\r\n") = some ([], some [⟨some [b! "a@b,"], b! "c", b! "d"⟩]) := by
    decide +kernel
  have key : ∀ {l v}, reads (Cfg.concrete .full) l = some ([], some v) → field (Cfg.concrete .full) l = .ok ([], .from v) := by
    intro l v h
    unfold reads at h
    split at h <;> cases h
    assumption
  refine ⟨_, _, _, key h1, key h2, rfl, ?_⟩
  rw [key h3]
  intro h
  have := congrArg List.length (Field.from.inj (congrArg Prod.snd (Outcome.ok.inj h)))
  cases this

private theorem reads_from {c : Cfg} {l : Bytes} {v : List Mailbox} (h : reads c l = some ([], some v)) :
    field c (l ++ []) = .ok ([], .from v) := by
  rw [List.append_nil]
  unfold reads at h
  split at h <;> cases h
  assumption

/-- Two lists of authors, the first with a comma of its own and a comment at its end. -/
example : field (Cfg.concrete .full) (b! "From: Doe <a@b>, \"x, y\" <c@d> (e, f), g@h\r\n") =
    .ok ([], .from [⟨some [b! "Doe"], b! "a", b! "b"⟩, ⟨some [b! "x, y"], b! "c", b! "d"⟩, ⟨none, b! "g", b! "h"⟩]) := by
  have h1 : reads (Cfg.concrete .full) (b! "From: Doe <a@b>, \"x, y\" <c@d> (e, f)\r\n") =
      some ([], some [⟨some [b! "Doe"], b! "a", b! "b"⟩, ⟨some [b! "x, y"], b! "c", b! "d"⟩]) := by decide +kernel
  have h2 : reads (Cfg.concrete .full) (b! "fROM: g@h\r\n") = some ([], some [⟨none, b! "g", b! "h"⟩]) := by decide +kernel
  exact C96_join (Cfg.concrete .full) (b! "From") _ _ _ (b! "fROM") _ _ _ [] _ _ _
    (exact_line (b! "From") (b! " Doe <a@b>, \"x, y\" <c@d> (e, f)") (by decide +kernel))
    (exact_line (b! "fROM") (b! " g@h") (by decide +kernel))
    ⟨by decide +kernel, fun _ => ⟨by decide +kernel, by decide +kernel, fun _ => by decide +kernel⟩⟩
    ⟨by decide +kernel, fun _ => ⟨by decide +kernel, by decide +kernel, fun _ => by decide +kernel⟩⟩
    stops_nil rfl rfl (reads_from h1) (reads_from h2) rfl

/-- The authors of a list, one by one. -/
example : ∃ ws : List Bytes, b! " Doe <a@b>, \"x, y\" <c@d> (e, f)" = withCommas ws ∧ ws.length = 2 ∧
    ∀ p ∈ ws.zip [Field.from [⟨some [b! "Doe"], b! "a", b! "b"⟩], .from [⟨some [b! "x, y"], b! "c", b! "d"⟩]],
      Solid p.1 → ∀ s, Stops wsp s → field (Cfg.concrete .full) (b! "From" ++ b! ":" ++ p.1 ++ CRLF ++ s) = .ok (s, p.2) := by
  have h1 : reads (Cfg.concrete .full) (b! "From: Doe <a@b>, \"x, y\" <c@d> (e, f)\r\n") =
      some ([], some [⟨some [b! "Doe"], b! "a", b! "b"⟩, ⟨some [b! "x, y"], b! "c", b! "d"⟩]) := by decide +kernel
  exact C96_apart (Cfg.concrete .full) (b! "From") _ _ _ [] _
    (exact_line (b! "From") (b! " Doe <a@b>, \"x, y\" <c@d> (e, f)") (by decide +kernel))
    ⟨by decide +kernel, fun _ => ⟨by decide +kernel, by decide +kernel, fun _ => by decide +kernel⟩⟩
    stops_nil rfl (reads_from h1) (by simp [singles])

/-- The commas of a quoted string, of a comment and of a group are not those of the list. -/
example : singles (.to [.group [b! "g"] [⟨none, b! "a", b! "b"⟩, ⟨none, b! "c", b! "d"⟩], .mailbox ⟨none, b! "e", b! "f"⟩]) =
    [.to [.group [b! "g"] [⟨none, b! "a", b! "b"⟩, ⟨none, b! "c", b! "d"⟩]], .to [.mailbox ⟨none, b! "e", b! "f"⟩]] ∧
    withCommas [b! " g:a@b,c@d;", b! " e@f"] = b! " g:a@b,c@d;, e@f" := ⟨rfl, rfl⟩

private def identifiers (c : Cfg) (l : Bytes) : Option (Bytes × Option (List (Bytes × Bytes))) :=
  match field c l with
  | .ok (t, .references v) => some (t, some v)
  | .ok (t, _) => some (t, none)
  | _ => none

private theorem reads_references {c : Cfg} {l : Bytes} {v : List (Bytes × Bytes)} (h : identifiers c l = some ([], some v)) :
    field c (l ++ []) = .ok ([], .references v) := by
  rw [List.append_nil]
  unfold identifiers at h
  split at h <;> cases h
  assumption

/-- A reference is added to two. -/
example : field (Cfg.concrete .full) (b! "References: <a@b> <c@d> (x) <e@f>\r\n") =
    .ok ([], .references [(b! "a", b! "b"), (b! "c", b! "d"), (b! "e", b! "f")]) := by
  have h1 : identifiers (Cfg.concrete .full) (b! "References: <a@b> <c@d>\r\n") =
      some ([], some [(b! "a", b! "b"), (b! "c", b! "d")]) := by decide +kernel
  have h2 : identifiers (Cfg.concrete .full) (b! "References: (x) <e@f>\r\n") = some ([], some [(b! "e", b! "f")]) := by
    decide +kernel
  exact C96_identifiers (Cfg.concrete .full) (b! "References") _ _ _ (b! "References") _ _ _ _ _ [] _ _ _
    (exact_line (b! "References") (b! " <a@b> <c@d>") (by decide +kernel))
    (exact_line (b! "References") (b! " (x) <e@f>") (by decide +kernel))
    (exact_line (b! "References") (b! " <a@b> <c@d> (x) <e@f>") (by decide +kernel))
    ⟨by decide +kernel, fun _ => ⟨by decide +kernel, by decide +kernel, fun _ => by decide +kernel⟩⟩
    ⟨by decide +kernel, fun _ => ⟨by decide +kernel, by decide +kernel, fun _ => by decide +kernel⟩⟩
    stops_nil rfl rfl (reads_references h1) (reads_references h2) rfl

/-- Two references, one by one. -/
example : ∃ ws : List Bytes, b! " <a@b>(x)<c@d>" = ws.flatten ∧ ws.length = 2 ∧
    ∀ p ∈ ws.zip [Field.references [(b! "a", b! "b")], .references [(b! "c", b! "d")]],
      Solid p.1 → ∀ s, Stops wsp s →
        field (Cfg.concrete .full) (b! "References" ++ b! ":" ++ p.1 ++ CRLF ++ s) = .ok (s, p.2) := by
  have h1 : identifiers (Cfg.concrete .full) (b! "References: <a@b>(x)<c@d>\r\n") =
      some ([], some [(b! "a", b! "b"), (b! "c", b! "d")]) := by decide +kernel
  exact C96_identifiers_apart (Cfg.concrete .full) (b! "References") _ _ _ [] _
    (exact_line (b! "References") (b! " <a@b>(x)<c@d>") (by decide +kernel))
    ⟨by decide +kernel, fun _ => ⟨by decide +kernel, by decide +kernel, fun _ => by decide +kernel⟩⟩
    stops_nil rfl (reads_references h1) (by simp [identifierSingles])

end EmailParser
