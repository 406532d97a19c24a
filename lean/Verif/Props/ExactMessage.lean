import Verif.Proofs.ExactMessage
import Verif.Props.ExactCut
import Verif.Props.ExactTrace
/-
C81: every message made of header lines is decided, trace headers and resent lines with encoded words included.
-/
namespace EmailParser
open Spec

variable (c : Cfg)

/-! ### C81: resent lines -/

/-- Exactly the resent lines that stand for a field are read, as that field. -/
theorem C81_resent (name x w l t r : Bytes) (f : TraceField) (h : HeaderText name x w l)
    (hf : name.map asciiLower ∈ traceNames → Fits c w) (ht : Stops wsp t) :
    matchParsers (l ++ t) (traceFieldParsers c) = .ok (r, f) ↔ r = t ∧ ResentE c l f :=
  (resentE_iff h hf ht).1 r f

/-- A line stands for one resent field at most. -/
theorem C81_resent_unique (name x w l : Bytes) (f f' : TraceField) (h : HeaderText name x w l)
    (hf : name.map asciiLower ∈ traceNames → Fits c w) (hv : ResentE c l f) (hv' : ResentE c l f') : f = f' := by
  have h1 := (C81_resent c name x w l [] [] f h hf stops_nil).mpr ⟨rfl, hv⟩
  rw [(C81_resent c name x w l [] [] f' h hf stops_nil).mpr ⟨rfl, hv'⟩] at h1
  cases h1
  rfl

/-! ### Lines of a message -/

theorem _root_.EmailParser.Spec.MessageLine.within {c : Cfg} {l : Bytes} (htr : c.feat.trace = true) :
    MessageLine c l → TraceWithin c l :=
  fun ⟨name, x, w, hl, hf⟩ => ⟨name, x, w, hl, fun hn => hf.resolve_right fun h => h.2 htr hn⟩

theorem _root_.EmailParser.Spec.MessageLine.line {c : Cfg} {l : Bytes} : MessageLine c l → LineWithin c l :=
  fun ⟨name, x, w, hl, hf⟩ => ⟨name, x, w, hl, hf.imp id (·.1)⟩

/-- The lines are divided in one way. -/
theorem C81_parted (ls : List Bytes) (hls : ∀ l ∈ ls, MessageLine c l) :
    ∃ ts rest, Parted c ls ts rest ∧ ∀ ts' rest', Parted c ls ts' rest' → ts' = ts ∧ rest' = rest := by
  unfold Parted
  by_cases htr : c.feat.trace = true
  · simp only [if_pos htr]
    obtain ⟨ts, rest, h⟩ := division_exists c (ResentE c) ls
    refine ⟨ts, rest, h, fun ts' rest' h' => ?_⟩
    exact division_unique h' h (fun l h => (hls l h).within htr) fun l h => resentE_reads ((hls l h).within htr)
  · simp only [if_neg htr]
    exact ⟨[], ls, ⟨rfl, rfl⟩, fun ts' rest' h' => h'⟩

theorem parted_traces {ls rest : List Bytes} {ts : List Field} {tail : Bytes} (hls : ∀ l ∈ ls, MessageLine c l)
    (ht : tail = [] ∨ CRLF <+: tail) (h : Parted c ls ts rest) :
    traces c (ls.flatten ++ tail) = .ok (rest.flatten ++ tail, ts) ∧ rest <:+ ls := by
  unfold Parted at h
  unfold traces
  by_cases htr : c.feat.trace = true
  · rw [if_pos htr] at h ⊢
    exact division_many h (fun l h => (hls l h).within htr) (fun l h => resentE_reads ((hls l h).within htr)) (ended_of ht).quiet
  · rw [if_neg htr] at h ⊢
    obtain ⟨rfl, rfl⟩ := h
    exact ⟨rfl, List.suffix_refl _⟩

theorem eachMeans_lines {ls : List Bytes} {fs : List Field} (h : EachMeans c ls fs) : LinesOf c ls fs := by
  induction h with
  | nil => exact .nil
  | @cons l f ls fs hl _ ih => exact .cons (by simpa using C80_reads c l [] f hl stops_nil) ih

/-- The lines mean one list of fields at most. -/
theorem C81_functional (ls : List Bytes) (fs fs' : List Field) (h : EachMeans c ls fs) (h' : EachMeans c ls fs') : fs = fs' := by
  induction h generalizing fs' with
  | nil => cases h'; rfl
  | cons hl _ ih =>
    cases h' with
    | cons hl' h' => rw [C80_functional c _ _ _ hl hl', ih _ h']

/-- The trace blocks and the fields of the header block. -/
theorem C81_fields (ls rest : List Bytes) (ts fs : List Field) (tail : Bytes) (hls : ∀ l ∈ ls, MessageLine c l)
    (h : Parted c ls ts rest) (hr : EachMeans c rest fs) (ht : tail = [] ∨ CRLF <+: tail) :
    fields c (ls.flatten ++ tail) = .ok (tail, ts ++ fs) := by
  unfold fields
  rw [(parted_traces c hls ht h).1, ok_bind]
  dsimp only
  rw [C10_lines c rest fs tail (eachMeans_lines c hr) ht]
  rfl

theorem bodyL_ended {tail : Bytes} {content : Option Bytes} (hb : BodyL c tail content) : tail = [] ∨ CRLF <+: tail := by
  cases hb with
  | none => exact .inl rfl
  | some => exact .inr (List.prefix_append _ _)

/-- The result for a message, to the letter. -/
theorem C81_message (hc : c.feat.compiles) (ls rest : List Bytes) (ts fs : List Field) (tail : Bytes) (content : Option Bytes)
    (hls : ∀ l ∈ ls, MessageLine c l) (h : Parted c ls ts rest) (hr : EachMeans c rest fs) (hb : BodyL c tail content) :
    EmailResult c (ts ++ fs) content (Email.parse c (ls.flatten ++ tail)) := by
  refine (emailFrom_iff hc (ts ++ fs) content _).mp ?_
  rw [email_parse_eq, parseMessage_eq, C81_fields c ls rest ts fs tail hls h hr (bodyL_ended c hb)]
  show emailFrom c (ts ++ fs) content = ((afterHeaders c tail).bind _).bind _
  rw [afterHeaders_body c hb]
  rfl

/-- All lines mean something, or there is a first one that is cut. -/
theorem each_decided {ls : List Bytes} (h : ∀ l ∈ ls, LineWithin c l) :
    (∃ fs, EachMeans c ls fs) ∨
    ∃ ls₁ fs name x w l ls₂, ls = ls₁ ++ l :: ls₂ ∧ EachMeans c ls₁ fs ∧ HeaderText name x w l ∧ Fits c w ∧ IsCut c name l := by
  induction ls with
  | nil => exact .inl ⟨[], .nil⟩
  | cons l ls ih =>
    obtain ⟨name, x, w, hl, hf⟩ := h l (by simp)
    by_cases hc : Fits c w ∧ IsCut c name l
    · exact .inr ⟨[], [], name, x, w, l, ls, rfl, .nil, hl, hc.1, hc.2⟩
    · obtain ⟨f, hm⟩ := (C80_total c name x w l hl hf).mpr hc
      rcases ih fun l h' => h l (by simp [h']) with ⟨fs, hfs⟩ | ⟨ls₁, fs, name', x', w', l', ls₂, rfl, h1, h2⟩
      · exact .inl ⟨f :: fs, .cons hm hfs⟩
      · exact .inr ⟨l :: ls₁, f :: fs, name', x', w', l', ls₂, rfl, .cons hm h1, h2⟩

/-- If there is a line after the trace blocks that means nothing, the message is refused. -/
theorem C81_rejected (ls rest : List Bytes) (ts : List Field) (tail : Bytes) (hls : ∀ l ∈ ls, MessageLine c l)
    (h : Parted c ls ts rest) (hr : ∀ fs, ¬ EachMeans c rest fs) (ht : tail = [] ∨ CRLF <+: tail) :
    Email.parse c (ls.flatten ++ tail) =
      .err (.explicit "TAG ERROR: Headers must be followed by a CRLF sequence.") := by
  obtain ⟨h1, hsuf⟩ := parted_traces c hls ht h
  rcases each_decided c (ls := rest) fun l hl => (hls l (hsuf.mem hl)).line with
    ⟨fs, hfs⟩ | ⟨ls₁, fs, name, x, w, l, ls₂, rfl, h2, hl, hf, hcut⟩
  · exact absurd hfs (hr fs)
  have hstop : Stops wsp (ls₂.flatten ++ tail) := by
    cases ls₂ with
    | nil =>
      rcases ht with rfl | ⟨u, rfl⟩
      · exact stops_nil
      · exact stops_cons.mpr (by decide)
    | cons l' ls₂ =>
      obtain ⟨_, _, _, h', -⟩ := hls l' (hsuf.mem (by simp))
      rw [List.flatten_cons, List.append_assoc]
      exact line_starts h' _
  obtain ⟨b, r, f, hb, hm⟩ : ∃ b r f, wsp b = true ∧
      many ((ls₁ ++ l :: ls₂).flatten ++ tail) (field c) = .ok (b :: r ++ (ls₂.flatten ++ tail), fs ++ [f]) := by
    obtain ⟨w₁, b, r, f, e, hb, hv⟩ := hcut
    refine ⟨b, r, f, hb, ?_⟩
    have hx := (C80_cut c name x w l _ w₁ r b f hl hf e hstop).mpr hv
    rw [List.flatten_append, List.flatten_cons, List.append_assoc, List.append_assoc]
    refine lines_then c (eachMeans_lines c h2) (line_starts hl _) (many_cons hx ?_ (many_err (field_white c hb)))
    rw [e]
    simp only [List.length_append, List.length_cons]
    omega
  have hfs : fields c (ls.flatten ++ tail) = .ok (b :: r ++ (ls₂.flatten ++ tail), ts ++ (fs ++ [f])) := by
    unfold fields
    rw [h1, ok_bind]
    dsimp only
    rw [hm]
    rfl
  exact fields_white c hb hfs

/-- Which messages are accepted. -/
theorem C81_accepted (hc : c.feat.compiles) (ls : List Bytes) (b : Bytes) (hls : ∀ l ∈ ls, MessageLine c l) :
    (∃ e, Email.parse c (ls.flatten ++ (CRLF ++ b)) = .ok e) ↔
      ∃ ts rest fs, Parted c ls ts rest ∧ EachMeans c rest fs ∧ (c.feat.mime = false → Body b) ∧ NoDuplicate fs ∧
        (∀ name, ¬ Missing c fs name) ∧ (c.feat.mime = true → ∃ v, Decoded (fs.findSome? encodingOf) b v) := by
  obtain ⟨ts, rest, h, -⟩ := C81_parted c ls hls
  have hts : ∀ {ts rest}, Parted c ls ts rest → ∀ f ∈ ts, ∃ a b d, f = .trace a b d := by
    intro ts rest h
    unfold Parted at h
    split at h
    · exact division_blocks h
    · rw [h.1]
      simp
  have key : ∀ ts rest fs, Parted c ls ts rest → EachMeans c rest fs → _ := fun ts rest fs h hr =>
    (fields_accepted c hc (fs := ts ++ fs)
      ⟨_, C81_fields c ls rest ts fs (CRLF ++ b) hls h hr (.inr (List.prefix_append CRLF b)), rfl⟩).trans
      (blocks_accepted c (hts h))
  constructor
  · intro he
    by_cases hr : ∃ fs, EachMeans c rest fs
    · obtain ⟨fs, hr⟩ := hr
      exact ⟨ts, rest, fs, h, hr, (key ts rest fs h hr).mp he⟩
    · obtain ⟨e, he⟩ := he
      rw [C81_rejected c ls rest ts (CRLF ++ b) hls h (fun fs h => hr ⟨fs, h⟩) (.inr (List.prefix_append CRLF b))] at he
      cases he
  · rintro ⟨ts, rest, fs, h, hr, hx⟩
    exact (key ts rest fs h hr).mpr hx

/-! ### Examples -/

/-- What is read, if it is a resent `From` line with one mailbox. -/
def resentWords : Res TraceField → Option (Bytes × List Bytes × Bytes × Bytes)
  | .ok (r, .from [⟨some ws, ⟨l, d⟩⟩]) => some (r, ws, l, d)
  | _ => none

theorem resentWords_eq {x : Res TraceField} {r l d : Bytes} {ws : List Bytes} (h : resentWords x = some (r, ws, l, d)) :
    x = .ok (r, .from [⟨some ws, ⟨l, d⟩⟩]) := by
  unfold resentWords at h
  split at h <;> simp at h
  obtain ⟨rfl, rfl, rfl, rfl⟩ := h
  rfl

/-- A resent line with an encoded word that contains an at-sign and a comma. -/
example : ResentE (Cfg.concrete .full) (b! "Resent-From: =?utf-8?q?a@b,?= e<c@d>\r\n") (.from [⟨some [b! "a@b,", b! "e"], ⟨b! "c", b! "d"⟩⟩]) :=
  ((C81_resent (Cfg.concrete .full) (b! "Resent-From") (b! " =?utf-8?q?a@b,?= e<c@d>") _ _ [] [] _ (exact_line _ _ (by decide +kernel))
    (fun _ => small_fits (by decide +kernel)) stops_nil).mp (resentWords_eq (by decide +kernel))).2

/-- A message with a trace block is accepted, and so all of its other lines mean something; if the only author and date are
resent ones, the message is not accepted. -/
example : (∃ ts rest fs, Parted (Cfg.concrete .full) [b! "Received: by x; 21 Nov 1997 10:01:22 -0600\r\n",
      b! "Resent-From: =?utf-8?q?a@b,?= e<c@d>\r\n", b! "From: a@b\r\n", b! "Date: 21 Nov 1997 10:01:22 -0600\r\n"] ts rest ∧
      EachMeans (Cfg.concrete .full) rest fs ∧ NoDuplicate fs ∧ ∀ name, ¬ Missing (Cfg.concrete .full) fs name) ∧
    ¬ ∃ ts rest fs, Parted (Cfg.concrete .full) [b! "Received: by x; 21 Nov 1997 10:01:22 -0600\r\n",
      b! "Resent-From: a@b\r\n", b! "Resent-Date: 21 Nov 1997 10:01:22 -0600\r\n"] ts rest ∧
      EachMeans (Cfg.concrete .full) rest fs ∧ NoDuplicate fs ∧ (∀ name, ¬ Missing (Cfg.concrete .full) fs name) ∧
      ∃ v, Decoded (fs.findSome? encodingOf) (b! "body") v := by
  have hc : (Cfg.concrete .full).feat.compiles := ⟨fun _ => rfl, fun _ => rfl⟩
  have line : ∀ name x, (name ≠ [] ∧ (∀ b ∈ name, ftext b = true) ∧ ∀ b ∈ x, vchar b = true ∨ wsp b = true) →
      (x.count 40 ≤ 100 ∧ x.count 42 < 256) → MessageLine (Cfg.concrete .full) (name ++ b! ":" ++ x ++ CRLF) :=
    fun name x h1 h2 => ⟨name, x, x, exact_line _ _ h1, .inl (small_fits h2)⟩
  have l1 := line (b! "Received") (b! " by x; 21 Nov 1997 10:01:22 -0600") (by decide +kernel) (by decide +kernel)
  have l2 := line (b! "Resent-From") (b! " =?utf-8?q?a@b,?= e<c@d>") (by decide +kernel) (by decide +kernel)
  have l3 := line (b! "From") (b! " a@b") (by decide +kernel) (by decide +kernel)
  have l4 := line (b! "Date") (b! " 21 Nov 1997 10:01:22 -0600") (by decide +kernel) (by decide +kernel)
  have l5 := line (b! "Resent-From") (b! " a@b") (by decide +kernel) (by decide +kernel)
  have l6 := line (b! "Resent-Date") (b! " 21 Nov 1997 10:01:22 -0600") (by decide +kernel) (by decide +kernel)
  constructor
  · obtain ⟨ts, rest, fs, h1, h2, -, h3, h4, -⟩ := (C81_accepted (Cfg.concrete .full) hc
      [b! "Received: by x; 21 Nov 1997 10:01:22 -0600\r\n", b! "Resent-From: =?utf-8?q?a@b,?= e<c@d>\r\n", b! "From: a@b\r\n",
        b! "Date: 21 Nov 1997 10:01:22 -0600\r\n"] (b! "body") (by
      intro l hl
      simp only [List.mem_cons, List.not_mem_nil, or_false] at hl
      rcases hl with rfl | rfl | rfl | rfl
      · exact l1
      · exact l2
      · exact l3
      · exact l4)).mp (isOk_iff.mp (by decide +kernel))
    exact ⟨ts, rest, fs, h1, h2, h3, h4⟩
  · rintro ⟨ts, rest, fs, h1, h2, h3, h4, h5⟩
    have := (C81_accepted (Cfg.concrete .full) hc
      [b! "Received: by x; 21 Nov 1997 10:01:22 -0600\r\n", b! "Resent-From: a@b\r\n",
        b! "Resent-Date: 21 Nov 1997 10:01:22 -0600\r\n"] (b! "body") (by
      intro l hl
      simp only [List.mem_cons, List.not_mem_nil, or_false] at hl
      rcases hl with rfl | rfl | rfl
      · exact l1
      · exact l5
      · exact l6)).mpr ⟨ts, rest, fs, h1, h2, fun h => absurd h (by decide), h3, h4, fun _ => h5⟩
    exact absurd (isOk_iff.mpr this) (by decide +kernel)

/-- After a trace block, a line that is cut: the message is refused. -/
example (ts : List Field) (rest : List Bytes)
    (h : Parted (Cfg.concrete .full) [b! "Received: by x; 21 Nov 1997 10:01:22 -0600\r\n", b! "Content-Type: a/b;c=d\r\n x\r\n"] ts rest) :
    ∀ fs, ¬ EachMeans (Cfg.concrete .full) rest fs := by
  intro fs hfs
  have hls : ∀ l ∈ [b! "Received: by x; 21 Nov 1997 10:01:22 -0600\r\n", b! "Content-Type: a/b;c=d\r\n x\r\n"],
      MessageLine (Cfg.concrete .full) l := by
    intro l hl
    simp only [List.mem_cons, List.not_mem_nil, or_false] at hl
    rcases hl with rfl | rfl
    · exact ⟨_, _, _, exact_line (b! "Received") (b! " by x; 21 Nov 1997 10:01:22 -0600") (by decide +kernel),
        .inl (small_fits (by decide +kernel))⟩
    · exact ⟨_, _, _, folded_line (b! "Content-Type") (b! "a/b;c=d") (b! "x") (by decide +kernel), .inl (small_fits (by decide +kernel))⟩
  have h1 := C81_fields (Cfg.concrete .full) _ _ _ _ [] hls h hfs (.inl rfl)
  have h2 : (match fields (Cfg.concrete .full) ([b! "Received: by x; 21 Nov 1997 10:01:22 -0600\r\n",
      b! "Content-Type: a/b;c=d\r\n x\r\n"].flatten ++ []) with
    | .ok (r, _) => r == b! " x\r\n"
    | _ => false) = true := by decide +kernel
  rw [h1] at h2
  exact absurd h2 (by simp)

end EmailParser
