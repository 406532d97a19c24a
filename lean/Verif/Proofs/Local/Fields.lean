import Verif.Proofs.Local.Values
import Verif.Proofs.Sound.Fields
/-
Locality of header fields and of header blocks.
-/
namespace EmailParser
open Spec (Gram)

variable {α β γ : Type} {t t' : Bytes} {c : Cfg}

/-- As `Same`, for a parser that may also read the line end itself. -/
inductive SameLine (t t' : Bytes) {α : Type} (w : Bytes) : Res α → Res α → Prop
  | inside (u s : Bytes) (v : α) : w = u ++ s →
    SameLine t t' w (.ok (s ++ 13 :: 10 :: t, v)) (.ok (s ++ 13 :: 10 :: t', v))
  | done (v : α) : SameLine t t' w (.ok (t, v)) (.ok (t', v))
  | err (e e' : Error) : SameLine t t' w (.err e) (.err e')
  | abort (k : Abort) : SameLine t t' w (.abort k) (.abort k)

/-- As `Local`, for a parser that may also read the line end itself. -/
def LocalLine (p : Bytes → Res α) : Prop :=
  ∀ t t' w, Tails t t' → SameLine t t' w (p (w ++ 13 :: 10 :: t)) (p (w ++ 13 :: 10 :: t'))

theorem SameLine.mono {u w : Bytes} {x y : Res α} (h : SameLine t t' w x y) :
    SameLine t t' (u ++ w) x y := by
  cases h with
  | inside u' s v e => exact .inside (u ++ u') s v (by simp [e])
  | done v => exact .done v
  | err e e' => exact .err e e'
  | abort k => exact .abort k

theorem SameLine.bind {w : Bytes} {x y : Res α} {f g : Bytes × α → Res β} (h : Same t t' w x y)
    (hf : ∀ s v, SameLine t t' s (f (s ++ 13 :: 10 :: t, v)) (g (s ++ 13 :: 10 :: t', v))) :
    SameLine t t' w (x >>= f) (y >>= g) := by
  cases h with
  | ok u s v e => subst e; exact (hf s v).mono
  | err e e' => exact .err e e'
  | abort k => exact .abort k

/-- The end of a header. -/
theorem crlf_line {m : String} {v : α} (w : Bytes) :
    SameLine t t' w (tag (w ++ 13 :: 10 :: t) (b! "\r\n") m >>= fun r => .ok (r.1, v))
      (tag (w ++ 13 :: 10 :: t') (b! "\r\n") m >>= fun r => .ok (r.1, v)) := by
  match w with
  | [] =>
    have h : ∀ s, tag (13 :: 10 :: s) (b! "\r\n") m = .ok (s, ()) := fun s => tag_append (b! "\r\n") s m
    simp only [List.nil_append, h]
    exact .done v
  | [b] =>
    obtain ⟨e, h⟩ : ∃ e, tag ([b] ++ 13 :: 10 :: t) (b! "\r\n") m = .err e :=
      ⟨_, tag_err (by rintro ⟨r, h⟩; simp at h)⟩
    obtain ⟨e', h'⟩ : ∃ e, tag ([b] ++ 13 :: 10 :: t') (b! "\r\n") m = .err e :=
      ⟨_, tag_err (by rintro ⟨r, h⟩; simp at h)⟩
    rw [h, h']
    exact .err _ _
  | b :: b' :: w =>
    by_cases hb : b = 13 ∧ b' = 10
    · obtain ⟨rfl, rfl⟩ := hb
      have h : ∀ s, tag (13 :: 10 :: s) (b! "\r\n") m = .ok (s, ()) := fun s => tag_append (b! "\r\n") s m
      simp only [List.cons_append, h]
      exact .inside (b! "\r\n") w v rfl
    · rw [tag_err (by rintro ⟨r, h⟩; simp at h; exact hb ⟨h.1.symm, h.2.1.symm⟩),
        tag_err (by rintro ⟨r, h⟩; simp at h; exact hb ⟨h.1.symm, h.2.1.symm⟩)]
      exact .err _ _

theorem headerLine_local {n n2 : Bytes} {m m' : String} {p : Bytes → Res α} (h : n2 = n.map swapCase)
    (hn : 13 ∉ n.map asciiLower) (hp : Local p) : LocalLine (headerLine n n2 m m' p) :=
  fun t t' w ht => .bind (tagNoCase_local h hn t t' w ht) fun s _ =>
    .bind (hp t t' s ht) fun s _ => crlf_line s

theorem LocalLine.cases {p : Bytes → Res α} (hp : LocalLine p) {w : Bytes} (ht : Tails t t') :
    (∃ u s v, w = u ++ s ∧ p (w ++ 13 :: 10 :: t) = .ok (s ++ 13 :: 10 :: t, v) ∧
      p (w ++ 13 :: 10 :: t') = .ok (s ++ 13 :: 10 :: t', v)) ∨
    (∃ v, p (w ++ 13 :: 10 :: t) = .ok (t, v) ∧ p (w ++ 13 :: 10 :: t') = .ok (t', v)) ∨
    (∃ e e', p (w ++ 13 :: 10 :: t) = .err e ∧ p (w ++ 13 :: 10 :: t') = .err e') ∨
    (∃ k, p (w ++ 13 :: 10 :: t) = .abort k ∧ p (w ++ 13 :: 10 :: t') = .abort k) := by
  have h := hp t t' w ht
  generalize p (w ++ 13 :: 10 :: t) = x at h
  generalize p (w ++ 13 :: 10 :: t') = y at h
  cases h with
  | inside u s v e => exact .inl ⟨u, s, v, e, rfl, rfl⟩
  | done v => exact .inr (.inl ⟨v, rfl, rfl⟩)
  | err e e' => exact .inr (.inr (.inl ⟨e, e', rfl, rfl⟩))
  | abort k => exact .inr (.inr (.inr ⟨k, rfl, rfl⟩))

theorem mapLine_local {f : α → β} {p : Bytes → Res α} (hp : LocalLine p) : LocalLine (mapValue f p) := by
  intro t t' w ht
  unfold mapValue
  rcases hp.cases (w := w) ht with ⟨u, s, v, e, h1, h2⟩ | ⟨v, h1, h2⟩ | ⟨e, e', h1, h2⟩ | ⟨k, h1, h2⟩ <;>
    rw [h1, h2]
  · exact .inside u s _ e
  · exact .done _
  · exact .err _ _
  · exact .abort _

theorem matchLines_local : ∀ {ps : List (Bytes → Res α)}, (∀ p ∈ ps, LocalLine p) →
    LocalLine fun i => matchParsers i ps
  | [], _ => fun t t' w _ => .err _ _
  | p :: ps, h => by
    intro t t' w ht
    dsimp only
    unfold matchParsers
    rcases (h p (by simp)).cases (w := w) ht with
      ⟨u, s, v, e, h1, h2⟩ | ⟨v, h1, h2⟩ | ⟨e, e', h1, h2⟩ | ⟨k, h1, h2⟩ <;> rw [h1, h2]
    · exact .inside u s _ e
    · exact .done v
    · exact matchLines_local (ps := ps) (fun q hq => h q (by simp [hq])) t t' w ht
    · exact .abort k

/-! ### The values -/

theorem bccValue_local : Local (bccValue c) := by
  intro t t' w ht
  unfold bccValue
  rcases (addressList_local (c := c)).cases (w := w) ht with
    ⟨u, s, v, e, h1, h2⟩ | ⟨_, _, h1, h2⟩ | ⟨k, h1, h2⟩ <;> rw [h1, h2]
  · exact .ok u s _ e
  · dsimp only
    rcases (cfws_local (c := c)).cases (w := w) ht with
      ⟨u, s, v, e, h1, h2⟩ | ⟨_, _, h1, h2⟩ | ⟨k, h1, h2⟩ <;> rw [h1, h2]
    · exact .ok u s _ e
    · exact .err _ _
    · exact .abort k
  · exact .abort k

theorem messageIds_local : Local (messageIds c) :=
  many1_local messageId_local (shrinks_of messageId_progress messageId_parses)

theorem textValue_local : Local (textValue c) := by
  unfold textValue
  intro t t' w ht
  split
  · exact mimeUnstructured_local t t' w ht
  · exact unstructured_local t t' w ht

theorem unknownValue_local : Local (unknownValue c) := by
  unfold unknownValue
  intro t t' w ht
  split
  · exact mimeUnstructured_local t t' w ht
  · exact unstructured_local t t' w ht

theorem keywordList_local : Local (keywordList c) := fun t t' w ht =>
  .bind (phrase_local t t' w ht) fun s _ =>
    .bind (many_local (prefixed_local (by decide) phrase_local) (comma_shrinks phrase_parses) t t' s ht)
      fun _ _ => .same

theorem emptyPath_local : Local (emptyPath c) := by
  intro t t' w ht
  refine .skip ht fun s => ?_
  refine .bind (tag_local (by decide) t t' s ht) fun s _ => ?_
  refine .skip ht fun s => ?_
  refine .bind (tag_local (by decide) t t' s ht) fun s _ => ?_
  exact .skip ht fun s => .same

theorem returnPathValue_local : Local (returnPathValue c) := by
  refine matchParsers_local fun p hp => ?_
  simp only [List.mem_cons, List.not_mem_nil, or_false] at hp
  rcases hp with rfl | rfl
  · exact fun t t' w ht => .bind (angleAddr_local t t' w ht) fun _ _ => .same
  · exact fun t t' w ht => .bind (emptyPath_local t t' w ht) fun _ _ => .same

theorem domain_local : Local (domain c) := two_local dotAtom_local domainLiteral_local

theorem receivedToken_local : Local (receivedToken c) := by
  intro t t' w ht
  unfold receivedToken
  rcases (word_local (c := c)).cases (w := w) ht with
    ⟨u, s, v, e, h1, h2⟩ | ⟨_, _, h1, h2⟩ | ⟨k, h1, h2⟩ <;> rw [h1, h2] <;> dsimp only
  · rcases (domain_local (c := c)).cases (w := w) ht with
      ⟨u', s', v', e', h1, h2⟩ | ⟨_, _, h1, h2⟩ | ⟨k, h1, h2⟩ <;> rw [h1, h2]
    · exact .ite (fun _ => .ok u' s' _ e') fun _ => .ok u s _ e
    · exact .ok u s _ e
    · exact .abort k
  · rcases (angleAddr_local (c := c)).cases (w := w) ht with
      ⟨u, s, v, e, h1, h2⟩ | ⟨_, _, h1, h2⟩ | ⟨k, h1, h2⟩ <;> rw [h1, h2] <;> dsimp only
    · exact .ok u s _ e
    · rcases (addrSpec_local (c := c)).cases (w := w) ht with
        ⟨u, s, v, e, h1, h2⟩ | ⟨_, _, h1, h2⟩ | ⟨k, h1, h2⟩ <;> rw [h1, h2] <;> dsimp only
      · exact .ok u s _ e
      · rcases (domain_local (c := c)).cases (w := w) ht with
          ⟨u, s, v, e, h1, h2⟩ | ⟨_, _, h1, h2⟩ | ⟨k, h1, h2⟩ <;> rw [h1, h2] <;> dsimp only
        · exact .ok u s _ e
        · exact .err _ _
        · exact .abort k
      · exact .abort k
    · exact .abort k
  · exact .abort k

theorem receivedValue_local : Local (receivedValue c) := fun t t' w ht =>
  .bind (many_local receivedToken_local (shrinks_of receivedToken_progress receivedToken_parses) t t' w ht)
    fun s _ => .bind (tag_local (by decide) t t' s ht) fun s _ =>
      .bind (dateTime_local t t' s ht) fun _ _ => .same

/-! ### The fields -/

theorem unknown_local : LocalLine (unknown c) := fun t t' w ht =>
  .bind (takeWhile1_local (by decide) t t' w ht) fun s _ =>
    .bind (tag_local (by decide) t t' s ht) fun s _ =>
      .bind (unknownValue_local t t' s ht) fun s _ => crlf_line s

theorem fieldParsers_local : ∀ p ∈ fieldParsers c, LocalLine p := by
  unfold fieldParsers
  refine append_forall ?_ (List.forall_mem_singleton.mpr (mapLine_local unknown_local))
  refine append_forall ?_ (enabled_forall fun _ =>
    mapLine_local (headerLine_local rfl (by decide) keywordList_local))
  refine append_forall ?_ (enabled_forall fun _ =>
    mapLine_local (headerLine_local rfl (by decide) contentDispositionValue_local))
  refine append_forall ?_ (enabled_forall fun _ =>
    mapLine_local (headerLine_local rfl (by decide) mimeUnstructured_local))
  refine append_forall ?_ (enabled_forall fun _ =>
    mapLine_local (headerLine_local rfl (by decide) messageId_local))
  refine append_forall ?_ (enabled_forall fun _ =>
    mapLine_local (headerLine_local rfl (by decide) transferEncodingValue_local))
  refine append_forall ?_ (enabled_forall fun _ =>
    mapLine_local (headerLine_local rfl (by decide) contentTypeValue_local))
  refine append_forall ?_ (enabled_forall fun _ =>
    mapLine_local (headerLine_local rfl (by decide) mimeVersionValue_local))
  refine append_forall ?_ (enabled_forall fun _ =>
    mapLine_local (headerLine_local rfl (by decide) textValue_local))
  refine append_forall ?_ (enabled_forall fun _ =>
    mapLine_local (headerLine_local rfl (by decide) textValue_local))
  refine append_forall ?_ (enabled_forall fun _ =>
    mapLine_local (headerLine_local rfl (by decide) messageIds_local))
  refine append_forall ?_ (enabled_forall fun _ =>
    mapLine_local (headerLine_local rfl (by decide) messageIds_local))
  refine append_forall ?_ (enabled_forall fun _ =>
    mapLine_local (headerLine_local rfl (by decide) messageId_local))
  refine append_forall ?_ (enabled_forall fun _ =>
    mapLine_local (headerLine_local rfl (by decide) bccValue_local))
  refine append_forall ?_ (enabled_forall fun _ =>
    mapLine_local (headerLine_local rfl (by decide) addressList_local))
  refine append_forall ?_ (enabled_forall fun _ =>
    mapLine_local (headerLine_local rfl (by decide) addressList_local))
  refine append_forall ?_ (enabled_forall fun _ =>
    mapLine_local (headerLine_local rfl (by decide) addressList_local))
  refine append_forall ?_ (enabled_forall fun _ =>
    mapLine_local (headerLine_local rfl (by decide) mailbox_local))
  refine append_forall ?_ (enabled_forall fun _ =>
    mapLine_local (headerLine_local rfl (by decide) mailboxList_local))
  exact enabled_forall fun _ => mapLine_local (headerLine_local rfl (by decide) dateTime_local)

theorem field_local : LocalLine (field c) := matchLines_local fieldParsers_local

theorem returnPath_local : LocalLine (returnPath c) := headerLine_local rfl (by decide) returnPathValue_local

theorem received_local : LocalLine (received c) := headerLine_local rfl (by decide) receivedValue_local

theorem resent_local {m : String} {p : Bytes → Res α} (hp : LocalLine p) : LocalLine (resent m p) := by
  intro t t' w ht
  refine .bind (tagNoCase_local rfl (by decide) t t' w ht) fun s _ => ?_
  dsimp only
  rcases hp.cases (w := s) ht with ⟨u, s, v, e, h1, h2⟩ | ⟨v, h1, h2⟩ | ⟨e, e', h1, h2⟩ | ⟨k, h1, h2⟩ <;>
    rw [h1, h2]
  · exact .inside u s _ e
  · exact .done _
  · exact .err _ _
  · exact .abort _

theorem traceFields_local : LocalLine fun i => matchParsers i (traceFieldParsers c) := by
  refine matchLines_local fun p hp => ?_
  simp only [traceFieldParsers, List.mem_cons, List.not_mem_nil, or_false] at hp
  rcases hp with rfl | rfl | rfl | rfl | rfl | rfl | rfl
  · exact mapLine_local (resent_local (headerLine_local rfl (by decide) dateTime_local))
  · exact mapLine_local (resent_local (headerLine_local rfl (by decide) mailboxList_local))
  · exact mapLine_local (resent_local (headerLine_local rfl (by decide) mailbox_local))
  · exact mapLine_local (resent_local (headerLine_local rfl (by decide) addressList_local))
  · exact mapLine_local (resent_local (headerLine_local rfl (by decide) addressList_local))
  · exact mapLine_local (resent_local (headerLine_local rfl (by decide) bccValue_local))
  · exact mapLine_local (resent_local (headerLine_local rfl (by decide) messageId_local))

end EmailParser
