import Verif.Props.Build
/-
C88: messages of which only the beginning has arrived.  `Spec.Split` is in Verif/Spec/ExactAll.lean, `Spec.Body` in
Verif/Spec/Fields.lean.
-/
namespace EmailParser
open Spec

variable (c : Cfg)

/-! ### Beginnings of bodies -/

theorem joinLines_cons (l : Bytes) {ls : List Bytes} (h : ls ≠ []) : joinLines (l :: ls) = l ++ CRLF ++ joinLines ls := by
  cases ls with
  | nil => exact absurd rfl h
  | cons => rfl

theorem joinLines_last {ls : List Bytes} (h : ∀ l ∈ ls, BodyLine l) : (joinLines ls).getLast? ≠ some 13 := by
  induction ls with
  | nil => simp [joinLines]
  | cons l ls ih =>
    have ih := ih fun l hl => h l (by simp [hl])
    cases ls with
    | nil =>
      intro e
      have := (h l (by simp)).2 13 (List.mem_of_getLast? e)
      exact absurd this (by decide)
    | cons l' ls =>
      rw [joinLines_cons _ (by simp), List.getLast?_append, List.getLast?_append]
      generalize (joinLines (l' :: ls)).getLast? = x at ih ⊢
      cases x with
      | none => simp [CRLF]
      | some x => simpa using ih

theorem body_beginning {ls : List Bytes} (hls : ∀ l ∈ ls, BodyLine l) {b t : Bytes} (e : joinLines ls = b ++ t)
    (hb : b.getLast? ≠ some 13) : Body b := by
  have one : ∀ {l b : Bytes}, BodyLine l → b <+: l → Body b := fun {l b} h h' =>
    ⟨[b], by simp, rfl, by
      simp only [List.mem_singleton, forall_eq]
      exact ⟨Nat.le_trans h'.length_le h.1, fun x hx => h.2 x (h'.subset hx)⟩⟩
  induction ls generalizing b t with
  | nil =>
    obtain rfl : b = [] := by
      simp only [joinLines] at e
      exact (List.append_eq_nil_iff.mp e.symm).1
    exact ⟨[[]], by simp, rfl, by simp [BodyLine]⟩
  | cons l ls ih =>
    have hl := hls l (by simp)
    by_cases hn : ls = []
    · subst hn
      exact one hl ⟨t, e.symm⟩
    rw [joinLines_cons _ hn, List.append_assoc] at e
    rcases List.append_eq_append_iff.mp e with ⟨y, h1, h2⟩ | ⟨y, h1, h2⟩
    · subst h1
      rcases y with - | ⟨y1, - | ⟨y2, y⟩⟩
      · exact one hl (by simp)
      · simp only [CRLF, List.cons_append, List.nil_append, List.cons.injEq] at h2
        rw [← h2.1] at hb
        simp at hb
      · simp only [CRLF, List.cons_append, List.nil_append, List.cons.injEq] at h2
        obtain ⟨rfl, rfl, h2⟩ := h2
        have hy : y.getLast? ≠ some 13 := by
          intro hy
          apply hb
          rw [show l ++ 13 :: 10 :: y = (l ++ [13, 10]) ++ y by simp, List.getLast?_append, hy]
          rfl
        obtain ⟨ms, h3, rfl, h4⟩ := ih (fun l hl => hls l (by simp [hl])) h2 hy
        refine ⟨l :: ms, by simp, ?_, ?_⟩
        · rw [joinLines_cons _ h3]; simp [CRLF]
        · intro m hm
          rcases List.mem_cons.mp hm with rfl | hm
          · exact hl
          · exact h4 m hm
    · exact one hl ⟨y, h1.symm⟩

/-- The beginning of a body is a body unless it ends between CR and LF. -/
theorem C88_body_beginning (b t : Bytes) (h : Body (b ++ t)) : Body b ↔ b.getLast? ≠ some 13 := by
  obtain ⟨ls, -, e, hls⟩ := h
  refine ⟨?_, body_beginning hls e.symm⟩
  rintro ⟨ms, -, rfl, hms⟩
  exact joinLines_last hms

/-! ### What follows the header block -/

theorem accepted_split (hc : c.feat.compiles) {i head tail : Bytes} {e : Email} (hs : Split i head tail)
    (h : Email.parse c i = .ok e) : ∃ fs b, (∀ t, Ended t → fields c (head ++ t) = .ok (t, fs)) ∧ NoDuplicate fs ∧
      (∀ n, ¬ Missing c fs n) ∧ IsEmail c fs b e := by
  obtain ⟨fs, b, hp, -, h1, h2, h3⟩ := parse_ok c hc h
  obtain ⟨t, h4, h5⟩ := parseMessage_content.1 hp
  obtain ⟨w, rfl, hw, hend⟩ := fields_end c hc h4
  have hl := (lines_headerBlock (strOk_utf8 c) hc.2 _ _ hw).1
  obtain ⟨_, _, -, hu⟩ := C83_split (w ++ t)
  obtain ⟨rfl, rfl⟩ := hu _ _ (split_lines hl (contentOf_ended h5))
  obtain ⟨rfl, rfl⟩ := hu _ _ hs
  exact ⟨fs, b, fun t' ht => fields_followed c hend (contentOf_ended h5) ht h4, h1, h2, h3⟩

/-- Without MIME, the body of an accepted message can be replaced by any other, or left out, and this changes nothing else. -/
theorem C88_other_body (hc : c.feat.compiles) (hm : c.feat.mime = false) (i head tail : Bytes) (e : Email) (hs : Split i head tail)
    (h : Email.parse c i = .ok e) :
    (∀ b, Body b → Email.parse c (head ++ CRLF ++ b) = .ok { e with body := some b }) ∧
    (∀ b, ¬ Body b → Email.parse c (head ++ CRLF ++ b) =
      .err (.explicit "TAG ERROR: In a body, a line must end with a CRLF sequence.")) ∧
    Email.parse c head = .ok { e with body := none } := by
  obtain ⟨fs, b0, h1, h2, h3, h4⟩ := accepted_split c hc hs h
  have key : ∀ t, Ended t → Email.parse c (head ++ t) = (afterHeaders c t).bind (emailFrom c fs) := by
    intro t ht
    rw [email_parse_eq, parseMessage_eq, h1 t ht]
    show ((afterHeaders c t).bind fun b => .ok (fs, b)).bind _ = _
    cases afterHeaders c t <;> rfl
  have fine : ∀ b, emailFrom c fs b = .ok { e with body := b } := fun b =>
    (emailFrom_iff hc fs b _).2 (.email h2 h3 { h4 with
      body := by simp [hm]
      entity := by rw [hm]; nofun })
  have after : ∀ t, afterHeaders c t = body t := fun t => by unfold afterHeaders; simp [hm]
  refine ⟨fun b hb => ?_, fun b hb => ?_, ?_⟩
  · rw [List.append_assoc, key (CRLF ++ b) (.crlf b), after, (C06_body_iff (CRLF ++ b) (some b)).mpr (.inr ⟨b, rfl, rfl, hb⟩)]
    exact fine _
  · rw [List.append_assoc, key (CRLF ++ b) (.crlf b), after]
    have := body_spec (CRLF ++ b)
    cases hx : body (CRLF ++ b) with
    | abort k => rw [hx] at this; exact this.elim
    | ok r =>
      rw [hx] at this
      cases r with
      | none => cases this
      | some w =>
        obtain ⟨e, hw⟩ := this
        exact absurd (List.append_cancel_left e ▸ hw) hb
    | err x =>
      rw [hx] at this
      rcases this with ⟨-, -, h⟩ | ⟨rfl, -⟩
      · exact absurd (List.prefix_append _ _) h
      · rfl
  · have := key [] .nil
    rw [List.append_nil, after] at this
    rw [this]
    exact fine _

/-- With MIME, what arrives without a body has an empty one, whatever its encoding. -/
theorem C88_no_body (hc : c.feat.compiles) (hm : c.feat.mime = true) (i head tail : Bytes) (e : Email) (hs : Split i head tail)
    (h : Email.parse c i = .ok e) :
    ∃ m, e.mimeEntity = some m ∧ Email.parse c head = .ok { e with mimeEntity := some { m with value := [] } } := by
  obtain ⟨fs, b0, h1, h2, h3, h4⟩ := accepted_split c hc hs h
  obtain ⟨m, hm', g1, g2, g3, g4, g5, -⟩ := h4.entity hm
  refine ⟨m, hm', ?_⟩
  have := h1 [] .nil
  rw [List.append_nil] at this
  rw [email_parse_eq, parseMessage_eq, this]
  show ((afterHeaders c []).bind fun b => .ok (fs, b)).bind _ = _
  rw [show afterHeaders c [] = .ok none by unfold afterHeaders; simp [hm]]
  refine (emailFrom_iff hc fs none _).2 (.email h2 h3 { h4 with
    body := by have := h4.body; simpa [hm] using this
    noEntity := by rw [hm]; nofun
    entity := fun _ => ⟨_, rfl, g1, g2, g3, g4, g5, fun _ => rfl, nofun⟩ })

/-! ### C88: the cuts -/

theorem madeOf_ends {w : Bytes} {ls : List Bytes} (h : MadeOf w ls) (hw : w ≠ []) : CRLF <:+ w := by
  obtain ⟨rfl, h⟩ := h
  induction ls with
  | nil => exact absurd rfl hw
  | cons l ls ih =>
    by_cases hn : ls.flatten = []
    · obtain ⟨name, x, t, ht⟩ := h l (by simp)
      rw [List.flatten_cons, hn, List.append_nil]
      rw [ht.text]
      exact List.suffix_append _ _
    · exact (ih (fun l hl => h l (by simp [hl])) hn).trans (List.suffix_append _ _)

theorem headersAre_ends {w : Bytes} {ls : List (Bytes × Bytes)} (h : HeadersAre w ls) (hw : w ≠ []) : CRLF <:+ w := by
  obtain ⟨rfl, -⟩ := h
  induction ls with
  | nil => exact absurd rfl hw
  | cons l ls ih =>
    rw [List.map_cons, List.flatten_cons]
    by_cases hn : (ls.map fun l => l.1 ++ 58 :: (l.2 ++ CRLF)).flatten = []
    · rw [hn, List.append_nil]
      exact ⟨l.1 ++ 58 :: l.2, by simp⟩
    · exact (ih hn).trans (List.suffix_append _ _)

/-- A text without an empty line that does not end with a line end is refused. -/
theorem C88_unfinished_line (hc : c.feat.compiles) (i : Bytes) (hi : i ≠ []) (h1 : ¬ CRLF <+: i)
    (h2 : ¬ Occurs (CRLF ++ CRLF) i) (h3 : ¬ CRLF <:+ i) : Aborted (Email.parse c i) ∨
      Email.parse c i = .err (.explicit "TAG ERROR: Headers must be followed by a CRLF sequence.") := by
  refine (C87_parse c hc i i [] (.none h1 h2) (fun ⟨ls, h, _⟩ => h3 (headersAre_ends h hi)) (c.stack + i.count 40)
    (by omega) (by omega)).imp_right fun h => ?_
  generalize Email.parse c i = r at h ⊢
  cases h with
  | read h => exact absurd (madeOf_ends h hi) h3
  | body h => exact absurd (madeOf_ends h hi) h3
  | cut => rfl
  | other => rfl

/-- A message cut inside of a line of its header block, or of the empty line after it, is refused. -/
theorem C88_cut_header (hc : c.feat.compiles) (i head tail p : Bytes) (hs : Split i head tail) (hp : p <+: i) (hne : p ≠ [])
    (hl : p.length ≤ head.length + 1) (he : ¬ CRLF <:+ p) : Aborted (Email.parse c p) ∨
      Email.parse c p = .err (.explicit "TAG ERROR: Headers must be followed by a CRLF sequence.") := by
  have occ : ∀ {w k}, OccursAt w p k → OccursAt w i k := by
    intro w k h
    obtain ⟨t, rfl⟩ := hp
    exact List.IsPrefix.trans h (by rw [List.drop_append]; exact List.prefix_append _ _)
  refine C88_unfinished_line c hc p hne ?_ ?_ he
  · intro h
    cases hs with
    | none h' => exact h' (h.trans hp)
    | first =>
      have := h.length_le
      simp [CRLF] at this hl
      omega
    | later h' => exact h' (h.trans hp)
  · rintro ⟨k, hk⟩
    cases hs with
    | none _ h' => exact h' ⟨k, occ hk⟩
    | first =>
      have := hk.length_le
      simp [CRLF] at this hl
      omega
    | later _ h' =>
      refine h'.2 k ?_ (occ hk)
      have := hk.length_le
      simp [CRLF] at this hl
      omega

/-- Without MIME, a message cut in its body is accepted with the beginning of the body, unless it is cut between CR and LF. -/
theorem C88_cut_body (hc : c.feat.compiles) (hm : c.feat.mime = false) (i head tail p : Bytes) (e : Email) (hs : Split i head tail)
    (h : Email.parse c i = .ok e) (hp : p <+: i) (hl : head.length + 2 ≤ p.length) :
    ∃ b t, p = head ++ CRLF ++ b ∧ e.body = some (b ++ t) ∧ Email.parse c p =
      if b.getLast? = some 13 then .err (.explicit "TAG ERROR: In a body, a line must end with a CRLF sequence.")
      else .ok { e with body := some b } := by
  obtain ⟨h1, h2, h3⟩ := C88_other_body c hc hm i head tail e hs h
  have hi : i = head ++ tail ∧ (tail = [] ∨ ∃ b, tail = CRLF ++ b) := by
    cases hs with
    | none => exact ⟨by simp, .inl rfl⟩
    | first e => exact ⟨e, .inr ⟨_, rfl⟩⟩
    | later _ h' => exact ⟨by rw [h'.1]; simp, .inr ⟨_, rfl⟩⟩
  obtain ⟨rfl, rfl | ⟨body, rfl⟩⟩ := hi
  · have := hp.length_le
    simp at this
    omega
  obtain ⟨t, ht⟩ := hp
  rw [← List.append_assoc] at ht
  obtain ⟨b, rfl⟩ : head ++ CRLF <+: p := by
    refine List.prefix_of_prefix_length_le (l₃ := p ++ t) ⟨body, ht.symm⟩ (List.prefix_append _ _) ?_
    simpa [CRLF] using hl
  obtain rfl : b ++ t = body := by simpa using ht
  have hb : Body (b ++ t) := by
    refine Classical.byContradiction fun hn => ?_
    have := h2 _ hn
    rw [List.append_assoc, h] at this
    cases this
  have he := h1 _ hb
  rw [List.append_assoc, h] at he
  refine ⟨b, t, rfl, ?_, ?_⟩
  · exact congrArg Email.body (Outcome.ok.inj he)
  · split
    · rename_i h13
      exact h2 b fun hb' => (C88_body_beginning b t hb).mp hb' h13
    · rename_i h13
      exact h1 b ((C88_body_beginning b t hb).mpr h13)

/-- With MIME, a message cut in its body is accepted with what the beginning of the body is decoded to, unless that cannot be
decoded. -/
theorem C88_cut_mime (hc : c.feat.compiles) (hm : c.feat.mime = true) (i head tail p : Bytes) (e : Email) (hs : Split i head tail)
    (h : Email.parse c i = .ok e) (hp : p <+: i) (hl : head.length + 2 ≤ p.length) :
    ∃ b t m encoding, p = head ++ CRLF ++ b ∧ tail = CRLF ++ (b ++ t) ∧ e.mimeEntity = some m ∧
      decoding encoding (b ++ t) = .ok m.value ∧
      (∀ v, decoding encoding b = .ok v → Email.parse c p = .ok { e with mimeEntity := some { m with value := v } }) ∧
      ∀ x, decoding encoding b = .err x → Email.parse c p = .err x := by
  obtain ⟨fs, b0, h1, h2, h3, h4⟩ := accepted_split c hc hs h
  have hi : i = head ++ tail ∧ (tail = [] ∨ ∃ b, tail = CRLF ++ b) := by
    cases hs with
    | none => exact ⟨by simp, .inl rfl⟩
    | first e => exact ⟨e, .inr ⟨_, rfl⟩⟩
    | later _ h' => exact ⟨by rw [h'.1]; simp, .inr ⟨_, rfl⟩⟩
  obtain ⟨rfl, rfl | ⟨body, rfl⟩⟩ := hi
  · have := hp.length_le
    simp at this
    omega
  obtain ⟨t, ht⟩ := hp
  rw [← List.append_assoc] at ht
  obtain ⟨b, rfl⟩ : head ++ CRLF <+: p := by
    refine List.prefix_of_prefix_length_le (l₃ := p ++ t) ⟨body, ht.symm⟩ (List.prefix_append _ _) ?_
    simpa [CRLF] using hl
  obtain rfl : b ++ t = body := by simpa using ht
  have key : ∀ b, Email.parse c (head ++ (CRLF ++ b)) = emailFrom c fs (some b) := by
    intro b
    rw [email_parse_eq, parseMessage_mime c hm (h1 (CRLF ++ b) (.crlf b))]
    rfl
  have h' := h
  rw [key] at h'
  have h5 := (emailFrom_iff hc fs _ _).1 h'
  cases h5 with
  | email _ _ h5 =>
  obtain ⟨m, hm', g1, g2, g3, g4, g5, -, g6⟩ := h5.entity hm
  refine ⟨b, t, m, fs.findSome? encodingOf, rfl, rfl, hm', g6 _ rfl, fun v hv => ?_, fun x hx => ?_⟩
  · rw [List.append_assoc, key]
    refine (emailFrom_iff hc fs _ _).2 (.email h2 h3 { h5 with
      body := by have := h5.body; simpa [hm] using this
      noEntity := by rw [hm]; nofun
      entity := fun _ => ⟨_, rfl, g1, g2, g3, g4, g5, nofun, ?_⟩ })
    rintro b' ⟨⟩
    exact hv
  · rw [List.append_assoc, key]
    exact (emailFrom_iff hc fs _ _).2 (.undecodable h2 h3 hm rfl hx)

theorem b64Decode_append (s : B64State) (ts us : List B64Token) (v : Bytes) (h : b64Decode s (ts ++ us) = .ok v) :
    (∃ v' w, b64Decode s ts = .ok v' ∧ b64Decode .start us = .ok w ∧ v = v' ++ w) ∨
      ∃ k ∈ ["Missing at least 3 bytes", "Missing at least 2 bytes", "Missing at least 1 byte"],
        b64Decode s ts = .err (.unknown k) := by
  have step : ∀ {ts us : List B64Token} {x v : Bytes},
      (∀ v, b64Decode .start (ts ++ us) = .ok v →
        (∃ v' w, b64Decode .start ts = .ok v' ∧ b64Decode .start us = .ok w ∧ v = v' ++ w) ∨
          ∃ k ∈ ["Missing at least 3 bytes", "Missing at least 2 bytes", "Missing at least 1 byte"],
            b64Decode .start ts = .err (.unknown k)) →
      (b64Decode .start (ts ++ us) >>= fun rest => .ok (x ++ rest)) = .ok v →
      (∃ v' w, (b64Decode .start ts >>= fun rest => .ok (x ++ rest)) = .ok v' ∧ b64Decode .start us = .ok w ∧ v = v' ++ w) ∨
        ∃ k ∈ ["Missing at least 3 bytes", "Missing at least 2 bytes", "Missing at least 1 byte"],
          (b64Decode .start ts >>= fun rest => .ok (x ++ rest)) = .err (.unknown k) := by
    intro ts us x v ih h
    obtain ⟨r, h1, h2⟩ := bind_eq_ok.1 h
    cases h2
    rcases ih r h1 with ⟨v', w, h3, h4, rfl⟩ | ⟨k, hk, h3⟩
    · exact .inl ⟨x ++ v', w, by rw [h3]; rfl, h4, by simp⟩
    · exact .inr ⟨k, hk, by rw [h3]; rfl⟩
  induction ts generalizing s v with
  | nil =>
    cases s with
    | start => exact .inl ⟨[], v, rfl, h, rfl⟩
    | one => exact .inr ⟨_, by simp, rfl⟩
    | two => exact .inr ⟨_, by simp, rfl⟩
    | three => exact .inr ⟨_, by simp, rfl⟩
    | twoPad => exact .inr ⟨_, by simp, rfl⟩
  | cons x ts ih =>
    cases s <;> cases x <;> simp only [List.cons_append, b64Decode] at h ⊢ <;>
      first
      | exact ih _ _ h
      | exact step (ih _) h
      | cases h

/-- A base64 body is decoded to the beginning of what was sent, or is refused for an incomplete group. -/
theorem C88_cut_base64 (b t v : Bytes) (h : decoding (some .base64) (b ++ t) = .ok v) :
    (∃ v', decoding (some .base64) b = .ok v' ∧ v' <+: v) ∨
      ∃ k ∈ ["Missing at least 3 bytes", "Missing at least 2 bytes", "Missing at least 1 byte"],
        decoding (some .base64) b = .err (.unknown k) := by
  have h : b64Decode .start (b64Tokens (b ++ t)) = .ok v := h
  rw [b64Tokens, List.filterMap_append] at h
  rcases b64Decode_append _ _ _ _ h with ⟨v', w, h1, -, rfl⟩ | h1
  · exact .inl ⟨v', h1, List.prefix_append _ _⟩
  · exact .inr h1

/-- A multipart body of which the closing delimiter has not arrived is refused. -/
theorem C88_cut_multipart (hm : c.feat.mime = true) (raw : RawEntity) (ht : raw.mimeType = .multipart) (b : Bytes)
    (hb : raw.parameters (b! "boundary") = some b) (h : ¬ closeDelimiter b <:+: raw.value) :
    raw.parse c = .err (.unknown "closing boundary not found") := by
  have hn : ∀ ps, ¬ MultipartText b raw.value ps := by
    intro ps hps
    obtain ⟨pre, epi, seps, -, -, e, -⟩ := C41_parts_cover_body raw.value b ps ((multipartParts_iff _ _ _).mpr hps)
    exact h ⟨_, epi, e.symm⟩
  refine (C86_multipart c hm raw ht (fun b' ps hb' hps => ?_) _).mpr (.text hb hn)
  rw [hb] at hb'
  cases hb'
  exact absurd hps (hn ps)

/-! ### Examples -/

def cutExample : Bytes := b! "From: a@b\r\nDate: 1 Jan 2020 00:00:00 +0000\r\nSubject: one\r\n two\r\n\r\nx\r\ny"

/-- Cut after a line of the header block, or between the lines of one header, the message is accepted, and nothing shows that
there was more. -/
theorem C88_unnoticed : ∃ i p p' e e' e'', p <+: i ∧ p' <+: i ∧ Email.parse (Cfg.concrete .default) i = .ok e ∧
    Email.parse (Cfg.concrete .default) p = .ok e' ∧ Email.parse (Cfg.concrete .default) p' = .ok e'' ∧
    e.subject = some (b! " one two") ∧ e'.subject = some (b! " one") ∧ e''.subject = none := by
  have key : ∀ {i : Bytes} {x : Option Bytes},
      (outcomeValue (Email.parse (Cfg.concrete .default) i)).map (·.subject) = some x →
      ∃ e, Email.parse (Cfg.concrete .default) i = .ok e ∧ e.subject = x := by
    intro i x h
    cases hx : Email.parse (Cfg.concrete .default) i with
    | ok e => rw [hx] at h; exact ⟨e, rfl, by simpa [outcomeValue] using h⟩
    | err e => rw [hx] at h; cases h
    | abort e => rw [hx] at h; cases h
  obtain ⟨e, h1, h2⟩ := key (i := cutExample) (x := some (b! " one two")) (by decide +kernel)
  obtain ⟨e', h3, h4⟩ := key (i := cutExample.take 58) (x := some (b! " one")) (by decide +kernel)
  obtain ⟨e'', h5, h6⟩ := key (i := cutExample.take 44) (x := none) (by decide +kernel)
  exact ⟨_, _, _, e, e', e'', List.take_prefix _ _, List.take_prefix _ _, h1, h3, h5, h2, h4, h6⟩

/-- Two groups of base64 with a line break; a beginning of one and a half groups is refused. -/
example : decoding (some .base64) (b! "YWJj\r\nZGVm") = .ok (b! "abcdef") ∧ decoding (some .base64) (b! "YWJj\r\n") = .ok (b! "abc") ∧
    decoding (some .base64) (b! "YWJj\r\nZG") = .err (.unknown "Missing at least 2 bytes") := by decide +kernel

/-- The cuts of this message at all places: it is refused (false) or accepted. -/
example : (List.range 71).map (fun k => isOk (Email.parse (Cfg.concrete .default) (cutExample.take k))) =
    (List.range 71).map fun k => decide (k ∈ [44, 58, 64, 66, 67, 69, 70]) := by decide +kernel

/-- A multipart body with its closing delimiter, and with the beginning of it only. -/
example : (outcomeValue (Email.parse (Cfg.concrete .full) (b! "From: a@b\r\nDate: 1 Jan 2020 00:00:00 +0000\r\nMIME-Version: 1.0\r\nContent-Type: multipart/mixed; boundary=b\r\n\r\n--b\r\n\r\nx\r\n--b--\r\n"))).bind
      (fun e => e.mimeEntity.map fun m => (isOk (m.parse (Cfg.concrete .full)),
        outcomeError (({ m with value := m.value.take 14 } : RawEntity).parse (Cfg.concrete .full)))) =
    some (true, some (.unknown "closing boundary not found")) := by decide +kernel

/-- Without its body an encoded message has an empty entity. -/
example : (outcomeValue (Email.parse (Cfg.concrete .full) (b! "From: a@b\r\nDate: 1 Jan 2020 00:00:00 +0000\r\nContent-Transfer-Encoding: base64\r\n"))).bind
      (fun e => e.mimeEntity.map (·.value)) = some [] ∧
    (outcomeValue (Email.parse (Cfg.concrete .full) (b! "From: a@b\r\nDate: 1 Jan 2020 00:00:00 +0000\r\nContent-Transfer-Encoding: base64\r\n\r\nYWJjZGV"))).isNone ∧
    (outcomeValue (Email.parse (Cfg.concrete .full) (b! "From: a@b\r\nDate: 1 Jan 2020 00:00:00 +0000\r\nContent-Transfer-Encoding: base64\r\n\r\nYWJj"))).bind
      (fun e => e.mimeEntity.map (·.value)) = some (b! "abc") := by decide +kernel

end EmailParser
