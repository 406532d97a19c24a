import Verif.Proofs.Local.Common
import Verif.Proofs.Sound.Mime
/-
Locality of the parsers of addresses, dates and MIME values.
-/
namespace EmailParser
open Spec (Gram)

variable {α β : Type} {t t' : Bytes} {c : Cfg}

/-! ### Addresses -/

theorem noFoldLitteral_local : Local noFoldLitteral := by
  intro t t' w ht
  refine .bind (tag_local (by decide) t t' w ht) fun s _ => ?_
  refine .bind (takeWhile_local (by decide) t t' s ht) fun s _ => ?_
  exact .bind (tag_local (by decide) t t' s ht) fun s _ => .same

theorem messageId_local : Local (messageId c) := by
  intro t t' w ht
  refine .skip ht fun s => ?_
  refine .bind (tag_local (by decide) t t' s ht) fun s _ => ?_
  refine .bind (dotAtomText_local t t' s ht) fun s _ => ?_
  refine .bind (tag_local (by decide) t t' s ht) fun s _ => ?_
  refine .bind (two_local dotAtomText_local noFoldLitteral_local t t' s ht) fun s _ => ?_
  refine .bind (tag_local (by decide) t t' s ht) fun s _ => ?_
  exact .skip ht fun s => .same

theorem domainLiteralLoop_local (ht : Tails t t') :
    ∀ n n' (w : Bytes), (w ++ 13 :: 10 :: t).length < n → (w ++ 13 :: 10 :: t').length < n' →
      Same t t' w (domainLiteralLoop n (w ++ 13 :: 10 :: t)) (domainLiteralLoop n' (w ++ 13 :: 10 :: t'))
  | 0, _, _, h, _ => by omega
  | _, 0, _, _, h => by omega
  | n + 1, n' + 1, w, hn, hn' => by
    unfold domainLiteralLoop
    rcases optFws_local.cases (w := w) ht with ⟨u, s, v, e, h1, h2⟩ | ⟨_, _, h1, h2⟩ | ⟨k, h1, h2⟩ <;>
      rw [h1, h2]
    · have := optFws_length h1
      have := optFws_length h2
      simp only [ok_bind]
      rcases (takeWhile1_local (p := isDtext) (by decide)).cases (w := s) ht with
        ⟨u', s', v', e', h1', h2'⟩ | ⟨_, _, h1', h2'⟩ | ⟨k, h1', h2'⟩ <;> rw [h1', h2']
      · have := takeWhile1_shrinks _ _ _ h1'
        have := takeWhile1_shrinks _ _ _ h2'
        subst e; subst e'
        exact .mono (.mono (.bind (domainLiteralLoop_local ht n n' s' (by omega) (by omega)) fun _ _ => .same))
      · exact .same
      · exact .abort k
    · exact .err _ _
    · exact .abort k

theorem domainLiteral_local : Local (domainLiteral c) := by
  intro t t' w ht
  refine .skip ht fun s => ?_
  refine .bind (tag_local (by decide) t t' s ht) fun s _ => ?_
  refine .bind (domainLiteralLoop_local ht _ _ s (by simp) (by simp)) fun s _ => ?_
  refine .bind (optFws_local t t' s ht) fun s _ => ?_
  refine .bind (tag_local (by decide) t t' s ht) fun s _ => ?_
  exact .skip ht fun s => .same

theorem addrSpec_local : Local (addrSpec c) := by
  intro t t' w ht
  refine .bind (two_local dotAtom_local quotedString_local t t' w ht) fun s _ => ?_
  refine .bind (tag_local (by decide) t t' s ht) fun s _ => ?_
  exact .bind (two_local dotAtom_local domainLiteral_local t t' s ht) fun s _ => .same

theorem angleAddr_local : Local (angleAddr c) := by
  intro t t' w ht
  refine .skip ht fun s => ?_
  refine .bind (tag_local (by decide) t t' s ht) fun s _ => ?_
  refine .bind (addrSpec_local t t' s ht) fun s _ => ?_
  refine .bind (tag_local (by decide) t t' s ht) fun s _ => ?_
  exact .skip ht fun s => .same

theorem mailbox_local : Local (mailbox c) := by
  refine two_local ?_ ?_
  · exact fun t t' w ht => .bind (optional_local phrase_local t t' w ht) fun s _ =>
      .bind (angleAddr_local t t' s ht) fun _ _ => .same
  · exact fun t t' w ht => .bind (addrSpec_local t t' w ht) fun _ _ => .same

theorem comma_shrinks {A : Aborts} {G : Gram α} {p : Bytes → Res α} (hp : Parses A G p) :
    Shrinks fun i => prefixed i p (b! ",") :=
  shrinks_of (progress_bind_left (progress_lit (by decide))) (prefixed_parses _ hp)

theorem mailboxList_local : Local (mailboxList c) := fun t t' w ht =>
  .bind (mailbox_local t t' w ht) fun s _ =>
    .bind (many_local (prefixed_local (by decide) mailbox_local) (comma_shrinks mailbox_parses) t t' s ht)
      fun _ _ => .same

theorem groupList_local : Local (groupList c) := by
  intro t t' w ht
  unfold groupList
  rcases (mailboxList_local (c := c)).cases (w := w) ht with
    ⟨u, s, v, e, h1, h2⟩ | ⟨_, _, h1, h2⟩ | ⟨k, h1, h2⟩ <;> rw [h1, h2]
  · exact .ok u s v e
  · dsimp only
    rcases (cfws_local (c := c)).cases (w := w) ht with
      ⟨u, s, v, e, h1, h2⟩ | ⟨_, _, h1, h2⟩ | ⟨k, h1, h2⟩ <;> rw [h1, h2]
    · exact .ok u s _ e
    · exact .same
    · exact .abort k
  · exact .abort k

theorem group_local : Local (group c) := by
  intro t t' w ht
  refine .bind (phrase_local t t' w ht) fun s _ => ?_
  refine .bind (tag_local (by decide) t t' s ht) fun s _ => ?_
  refine .bind (groupList_local t t' s ht) fun s _ => ?_
  refine .bind (tag_local (by decide) t t' s ht) fun s _ => ?_
  exact .skip ht fun s => .same

theorem address_local : Local (address c) := by
  intro t t' w ht
  unfold address
  rcases (mailbox_local (c := c)).cases (w := w) ht with
    ⟨u, s, v, e, h1, h2⟩ | ⟨_, _, h1, h2⟩ | ⟨k, h1, h2⟩ <;> rw [h1, h2]
  · exact .ok u s _ e
  · dsimp only
    rcases (group_local (c := c)).cases (w := w) ht with
      ⟨u, s, v, e, h1, h2⟩ | ⟨_, _, h1, h2⟩ | ⟨k, h1, h2⟩ <;> rw [h1, h2]
    · exact .ok u s _ e
    · exact .err _ _
    · exact .abort k
  · exact .abort k

theorem addressList_local : Local (addressList c) := fun t t' w ht =>
  .bind (address_local t t' w ht) fun s _ =>
    .bind (many_local (prefixed_local (by decide) address_local) (comma_shrinks address_parses) t t' s ht)
      fun _ _ => .same

/-! ### Dates -/

theorem digit_local : Local digit := by
  intro t t' w ht
  cases w with
  | nil => exact .err _ _
  | cons b w =>
    simp only [digit, List.cons_append]
    exact .ite (fun _ => .ok [b] w _ rfl) fun _ => .err _ _

theorem twoDigits_local : Local twoDigits := by
  intro t t' w ht
  refine .bind (digit_local t t' w ht) fun s _ => ?_
  refine .bind (digit_local t t' s ht) fun s _ => ?_
  exact .bindPure fun _ => .bindPure fun _ => .same

theorem name_local {p : Bytes → Res α} {table : List (Bytes × α)} {e e' : Error} (h : ∀ x ∈ table, 13 ∉ x.1)
    (hp : ∀ i, p i = if 3 ≤ i.length then
      match table.lookup ((i.take 3).map asciiLower) with
      | some v => .ok (i.drop 3, v)
      | none => .err e
    else .err e') : Local p := by
  have hl : ∀ k : Bytes, 13 ∈ k → table.lookup k = none := by
    intro k hk
    rw [List.lookup_eq_none_iff]
    intro x hx
    simp only [bne_iff_ne, ne_eq]
    rintro rfl
    exact h x hx hk
  intro t t' w ht
  rw [hp, hp]
  by_cases hw : 3 ≤ w.length
  · have e1 : ∀ s : Bytes, (w ++ s).take 3 = w.take 3 := fun s => List.take_append_of_le_length hw
    have e2 : ∀ s : Bytes, (w ++ s).drop 3 = w.drop 3 ++ s := fun s => List.drop_append_of_le_length hw
    simp only [e1, e2]
    rw [if_pos (by simp; omega), if_pos (by simp; omega)]
    split
    · exact .ok (w.take 3) _ _ (by simp)
    · exact .err _ _
  · have key : ∀ s : Bytes, ∃ x, (if 3 ≤ (w ++ 13 :: s).length then
      match table.lookup (((w ++ 13 :: s).take 3).map asciiLower) with
      | some v => .ok ((w ++ 13 :: s).drop 3, v)
      | none => .err e
      else .err e' : Res α) = .err x := by
      intro s
      have : 13 ∈ ((w ++ 13 :: s).take 3).map asciiLower := by
        refine List.mem_map.mpr ⟨13, ?_, by decide⟩
        rw [List.take_append]
        have : 3 - w.length = (2 - w.length) + 1 := by omega
        simp [this]
      rw [hl _ this]
      split <;> exact ⟨_, rfl⟩
    obtain ⟨x, hx⟩ := key (10 :: t)
    obtain ⟨y, hy⟩ := key (10 :: t')
    rw [hx, hy]
    exact .err _ _

theorem dayName_local : Local dayName :=
  name_local (table := dayNames) (e := .unknown "Not a valid day_name")
    (e' := .unknown "Expected day_name, but characters are missing (at least 3).") (by decide +kernel) fun i => by
      unfold dayName
      cases List.lookup ((i.take 3).map asciiLower) dayNames <;> rfl

theorem month_local : Local month :=
  name_local (table := monthNames) (e := .unknown "Not a valid month")
    (e' := .unknown "Expected month, but characters are missing (at least 3).") (by decide +kernel) fun i => by
      unfold month
      cases List.lookup ((i.take 3).map asciiLower) monthNames <;> rfl

theorem dayOfWeek_local : Local dayOfWeek := by
  intro t t' w ht
  refine .bind (optFws_local t t' w ht) fun s _ => ?_
  refine .bind (dayName_local t t' s ht) fun s _ => ?_
  exact .bind (tag_local (by decide) t t' s ht) fun s _ => .same

theorem year_local : Local year := by
  intro t t' w ht
  refine .bind (fws_local t t' w ht) fun s _ => ?_
  refine .bind (.mapErr (takeWhile1_local (by decide) t t' s ht)) fun s y => ?_
  refine .ite (fun _ => .err _ _) fun _ => ?_
  dsimp only
  split
  · exact .err _ _
  · exact .ite (fun _ => .err _ _) fun _ => .bind (fws_local t t' s ht) fun _ _ => .same

theorem secondDigit_local {d : Nat} : Local (secondDigit d) := by
  intro t t' w ht
  unfold secondDigit
  rcases digit_local.cases (w := w) ht with
    ⟨u, s, v, e, h1, h2⟩ | ⟨_, _, h1, h2⟩ | ⟨k, h1, h2⟩ <;> rw [h1, h2]
  · exact .bindPure fun _ => .bindPure fun _ => .ok u s _ e
  · exact .same
  · exact .abort k

theorem day_local : Local day := by
  intro t t' w ht
  refine .bind (optFws_local t t' w ht) fun s _ => ?_
  refine .bind (digit_local t t' s ht) fun s _ => ?_
  refine .bind (secondDigit_local t t' s ht) fun s _ => ?_
  exact .ite (fun _ => .err _ _) fun _ => .bind (fws_local t t' s ht) fun _ _ => .same

theorem timeOfDay_local : Local timeOfDay := by
  intro t t' w ht
  refine .bind (twoDigits_local t t' w ht) fun s _ => ?_
  refine .ite (fun _ => .err _ _) fun _ => ?_
  refine .bind (tag_local (by decide) t t' s ht) fun s _ => ?_
  refine .bind (twoDigits_local t t' s ht) fun s _ => ?_
  refine .ite (fun _ => .err _ _) fun _ => ?_
  by_cases hd : startsWith s (b! ":") = true
  · rw [if_pos (by rwa [startsWith_end (by decide)]), if_pos (by rwa [startsWith_end (by decide)])]
    obtain ⟨s, rfl⟩ := startsWith_iff.mp hd
    have e1 : ∀ x, sliceFrom (b! ":" ++ s ++ 13 :: 10 :: x) 1 = .ok (s ++ 13 :: 10 :: x) := by
      intro x; simp [sliceFrom]
    simp only [e1, ok_bind]
    rcases twoDigits_local.cases (w := s) ht with
      ⟨u, s, v, e, h1, h2⟩ | ⟨_, _, h1, h2⟩ | ⟨k, h1, h2⟩ <;> rw [h1, h2]
    · exact .ite (fun _ => .err _ _) fun _ => .ok (b! ":" ++ u) s _ (by simp [e])
    · exact .same
    · exact .abort k
  · rw [if_neg (by rwa [startsWith_end (by decide)]), if_neg (by rwa [startsWith_end (by decide)])]
    exact .same

theorem zoneSign_local : Local zoneSign := by
  intro t t' w ht
  cases w with
  | nil => exact .err _ _
  | cons b w =>
    simp only [zoneSign, List.cons_append]
    exact .ite (fun _ => .ok [b] w _ rfl) fun _ => .ite (fun _ => .ok [b] w _ rfl) fun _ => .err _ _

theorem zone_local : Local zone := by
  intro t t' w ht
  refine .bind (fws_local t t' w ht) fun s _ => ?_
  refine .bind (zoneSign_local t t' s ht) fun s _ => ?_
  refine .bind (twoDigits_local t t' s ht) fun s _ => ?_
  refine .bind (twoDigits_local t t' s ht) fun s _ => ?_
  exact .ite (fun _ => .err _ _) fun _ => .same

theorem date_local : Local date := by
  intro t t' w ht
  refine .bind (day_local t t' w ht) fun s _ => ?_
  refine .bind (month_local t t' s ht) fun s _ => ?_
  exact .bind (year_local t t' s ht) fun s _ => .same

theorem time_local : Local time := by
  intro t t' w ht
  refine .bind (timeOfDay_local t t' w ht) fun s _ => ?_
  exact .bind (zone_local t t' s ht) fun s _ => .same

theorem dateTime_local : Local (dateTime c) := by
  intro t t' w ht
  refine .bind (optional_local dayOfWeek_local t t' w ht) fun s _ => ?_
  refine .bind (date_local t t' s ht) fun s _ => ?_
  refine .bind (time_local t t' s ht) fun s _ => ?_
  exact .skip ht fun s => .same

/-! ### MIME values -/

theorem ignoreInlineCfws_local : Local (ignoreInlineCfws c) := fun t t' w ht =>
  .bind (triplet_local (takeWhile_local (by decide)) (optional_local (comment_local _))
    (takeWhile_local (by decide)) t t' w ht) fun _ _ => .same

theorem token_local : Local token := takeWhile1_local (by decide)

theorem digit_shrinks : Shrinks digit := by
  intro i r v h
  unfold digit at h
  split at h
  · split at h
    · cases h; simp
    · cases h
  · cases h

theorem u8NumberLoop_local (ht : Tails t t') :
    ∀ n n' (w : Bytes) k, (w ++ 13 :: 10 :: t).length < n → (w ++ 13 :: 10 :: t').length < n' →
      Same t t' w (u8NumberLoop n (w ++ 13 :: 10 :: t) k) (u8NumberLoop n' (w ++ 13 :: 10 :: t') k)
  | 0, _, _, _, h, _ => by omega
  | _, 0, _, _, _, h => by omega
  | n + 1, n' + 1, w, k, hn, hn' => by
    unfold u8NumberLoop
    rcases digit_local.cases (w := w) ht with ⟨u, s, v, e, h1, h2⟩ | ⟨_, _, h1, h2⟩ | ⟨k, h1, h2⟩ <;>
      rw [h1, h2]
    · have := digit_shrinks _ _ _ h1
      have := digit_shrinks _ _ _ h2
      subst e
      exact .ite (fun _ => .ite (fun _ => .mono (u8NumberLoop_local ht n n' s _ (by omega) (by omega)))
        fun _ => .err _ _) fun _ => .err _ _
    · exact .same
    · exact .abort k

theorem u8Number_local : Local u8Number := fun t t' w ht =>
  .bind (digit_local t t' w ht) fun s _ => u8NumberLoop_local ht _ _ s _ (by simp) (by simp)

theorem mimeVersionValue_local : Local (mimeVersionValue c) := by
  intro t t' w ht
  refine .skip ht fun s => ?_
  refine .bind (u8Number_local t t' s ht) fun s _ => ?_
  refine .bind (tag_local (by decide) t t' s ht) fun s _ => ?_
  refine .bind (u8Number_local t t' s ht) fun s _ => ?_
  exact .bind (ignoreInlineCfws_local t t' s ht) fun s _ => .same

theorem head_end (w s : Bytes) (b : UInt8) (hb : b ≠ 13) :
    ((w ++ 13 :: s)[0]? == some b) = (w[0]? == some b) := by
  cases w with
  | nil => simpa using Ne.symm hb
  | cons a w => simp

theorem encodedMark_local : Local encodedMark := by
  intro t t' w ht
  unfold encodedMark
  rw [head_end w _ 42 (by decide), head_end w _ 42 (by decide)]
  split
  · rename_i h
    cases w with
    | nil => simp at h
    | cons b w =>
      simp only [sliceFrom, List.cons_append, List.length_cons, List.drop_succ_cons, List.drop_zero]
      rw [if_pos (by omega), if_pos (by omega)]
      exact .ok [b] w _ rfl
  · exact .same

theorem extendedName_local : Local extendedName := by
  intro t t' w ht
  refine .bind (takeWhile1_local (by decide) t t' w ht) fun s _ => ?_
  refine .bind (optional_local (pair_local (tag_local (by decide)) (takeWhile1_local (by decide))) t t' s ht)
    fun s _ => ?_
  refine .bindPure fun _ => ?_
  refine .bind (encodedMark_local t t' s ht) fun s _ => ?_
  dsimp only
  rw [head_end s _ 61 (by decide), head_end s _ 61 (by decide)]
  exact .ite (fun _ => .same) fun _ => .err _ _

theorem parameterValue_local : Local (parameterValue c) :=
  two_local (fun t t' w ht => .bind (token_local t t' w ht) fun _ _ => .same) quotedString_local

theorem parameter_local : Local (parameter c) := by
  intro t t' w ht
  refine .skip ht fun s => ?_
  refine .bind (tag_local (by decide) t t' s ht) fun s _ => ?_
  refine .skip ht fun s => ?_
  refine .bind (two_local extendedName_local ?_ t t' s ht) fun s _ => ?_
  · exact fun t t' w ht => .bind (token_local t t' w ht) fun _ _ => .same
  refine .bind (tag_local (by decide) t t' s ht) fun s _ => ?_
  exact .bind (parameterValue_local t t' s ht) fun s _ => .same

theorem keyword_local {e e2 : Bytes} {m : String} {v : α} (h : e2 = e.map swapCase)
    (he : 13 ∉ e.map asciiLower) : Local (keyword e e2 m v) :=
  fun t t' w ht => .bind (tagNoCase_local h he t t' w ht) fun _ _ => .same

theorem otherToken_local {mk : Bytes → α} : Local (otherToken mk) :=
  fun t t' w ht => .bind (token_local t t' w ht) fun _ _ => .same

theorem mimeType_local : Local mimeType := by
  refine matchParsers_local ?_
  intro p hp
  simp only [List.mem_cons, List.not_mem_nil, or_false] at hp
  rcases hp with rfl | rfl | rfl | rfl | rfl | rfl | rfl | rfl
  all_goals first
    | exact otherToken_local
    | exact keyword_local (by decide) (by decide)

theorem dispositionType_local : Local dispositionType := by
  refine matchParsers_local ?_
  intro p hp
  simp only [List.mem_cons, List.not_mem_nil, or_false] at hp
  rcases hp with rfl | rfl | rfl
  all_goals first
    | exact otherToken_local
    | exact keyword_local (by decide) (by decide)

theorem transferEncoding_local : Local transferEncoding := by
  refine matchParsers_local ?_
  intro p hp
  simp only [List.mem_cons, List.not_mem_nil, or_false] at hp
  rcases hp with rfl | rfl | rfl | rfl | rfl | rfl
  all_goals first
    | exact otherToken_local
    | exact keyword_local (by decide) (by decide)

theorem contentTypeValue_local : Local (contentTypeValue c) := by
  intro t t' w ht
  refine .skip ht fun s => ?_
  refine .bind (mimeType_local t t' s ht) fun s _ => ?_
  refine .bind (tag_local (by decide) t t' s ht) fun s _ => ?_
  refine .bind (token_local t t' s ht) fun s _ => ?_
  refine .bind (many_local parameter_local (shrinks_of parameter_progress parameter_parses) t t' s ht)
    fun s _ => ?_
  refine .bindPure fun _ => ?_
  exact .bind (ignoreInlineCfws_local t t' s ht) fun s _ => .same

theorem filenameParameter_local : Local (filenameParameter c) := by
  intro t t' w ht
  refine .skip ht fun s => ?_
  refine .bind (tag_local (by decide) t t' s ht) fun s _ => ?_
  refine .skip ht fun s => ?_
  refine .bind (tagNoCase_local (by decide) (by decide) t t' s ht) fun s _ => ?_
  refine .bind (tag_local (by decide) t t' s ht) fun s _ => ?_
  exact parameterValue_local t t' s ht

theorem dateParameter_local {e e2 : Bytes} (h : e2 = e.map swapCase) (he : 13 ∉ e.map asciiLower) :
    Local fun i => dateParameter c i e e2 := by
  intro t t' w ht
  refine .skip ht fun s => ?_
  refine .bind (tag_local (by decide) t t' s ht) fun s _ => ?_
  refine .skip ht fun s => ?_
  refine .bind (tagNoCase_local h he t t' s ht) fun s _ => ?_
  refine .bind (tag_local (by decide) t t' s ht) fun s _ => ?_
  refine .bind (dateTime_local t t' s ht) fun s _ => ?_
  exact .bind (tag_local (by decide) t t' s ht) fun s _ => .same

theorem dispositionItem_local : Local (dispositionItem c) := by
  refine matchParsers_local ?_
  intro p hp
  simp only [List.mem_cons, List.not_mem_nil, or_false] at hp
  rcases hp with rfl | rfl | rfl | rfl | rfl
  · exact fun t t' w ht => .bind (filenameParameter_local t t' w ht) fun _ _ => .same
  · exact fun t t' w ht => .bind (dateParameter_local (by decide) (by decide) t t' w ht) fun _ _ => .same
  · exact fun t t' w ht => .bind (dateParameter_local (by decide) (by decide) t t' w ht) fun _ _ => .same
  · exact fun t t' w ht => .bind (dateParameter_local (by decide) (by decide) t t' w ht) fun _ _ => .same
  · exact fun t t' w ht => .bind (parameter_local t t' w ht) fun _ _ => .same

theorem contentDispositionValue_local : Local (contentDispositionValue c) := by
  intro t t' w ht
  refine .skip ht fun s => ?_
  refine .bind (dispositionType_local t t' s ht) fun s _ => ?_
  refine .bind (many_local dispositionItem_local (shrinks_of dispositionItem_progress dispositionItem_parses)
    t t' s ht) fun s _ => ?_
  refine .bindPure fun _ => ?_
  exact .bind (ignoreInlineCfws_local t t' s ht) fun s _ => .same

theorem transferEncodingValue_local : Local (transferEncodingValue c) := by
  intro t t' w ht
  refine .skip ht fun s => ?_
  refine .bind (transferEncoding_local t t' s ht) fun s _ => ?_
  exact .bind (ignoreInlineCfws_local t t' s ht) fun s _ => .same

end EmailParser
