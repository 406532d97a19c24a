import Verif.Props.Truncated
import Verif.Spec.Relay
/-
C90: lines that relays add at the top of a message.
-/
namespace EmailParser
open Spec

variable (c : Cfg)

/-! ### Trace blocks and unknown fields do not touch the rest -/

/-- Fields that are not members of their own. -/
def Silent (ts : List Field) : Prop := ∀ f ∈ ts, (∃ a b d, f = .trace a b d) ∨ ∃ n v, f = .unknown n v

theorem Silent.findSome {ts us : List Field} {α : Type} {g : Field → Option α} (h : Silent ts)
    (hg : ∀ a b d, g (.trace a b d) = none) (hg' : ∀ n v, g (.unknown n v) = none) :
    (ts ++ us).findSome? g = us.findSome? g := by
  rw [List.findSome?_append, List.findSome?_eq_none_iff.mpr, Option.none_or]
  intro f hf
  rcases h f hf with ⟨a, b, d, rfl⟩ | ⟨n, v, rfl⟩
  · exact hg a b d
  · exact hg' n v

theorem Silent.filterMap {ts us : List Field} {α : Type} {g : Field → Option α} (h : Silent ts)
    (hg : ∀ a b d, g (.trace a b d) = none) (hg' : ∀ n v, g (.unknown n v) = none) :
    (ts ++ us).filterMap g = us.filterMap g := by
  rw [List.filterMap_append, List.filterMap_eq_nil_iff.mpr, List.nil_append]
  intro f hf
  rcases h f hf with ⟨a, b, d, rfl⟩ | ⟨n, v, rfl⟩
  · exact hg a b d
  · exact hg' n v

theorem Silent.flatMap {ts us : List Field} {α : Type} {g : Field → List α} (h : Silent ts)
    (hg : ∀ a b d, g (.trace a b d) = []) (hg' : ∀ n v, g (.unknown n v) = []) :
    (ts ++ us).flatMap g = us.flatMap g := by
  rw [List.flatMap_append, List.flatMap_eq_nil_iff.mpr, List.nil_append]
  intro f hf
  rcases h f hf with ⟨a, b, d, rfl⟩ | ⟨n, v, rfl⟩
  · exact hg a b d
  · exact hg' n v

theorem Silent.noDuplicate {ts us : List Field} (h : Silent ts) : NoDuplicate (ts ++ us) ↔ NoDuplicate us := by
  unfold NoDuplicate
  rw [h.filterMap (fun _ _ _ => rfl) fun _ _ => rfl]

theorem Silent.missing {ts us : List Field} (h : Silent ts) {n : String} : Missing c (ts ++ us) n ↔ Missing c us n := by
  have key : ∀ {α : Type} {p : Field → Option α → Prop} {g : Field → Option α}, (∀ a b d, p (.trace a b d) (g (.trace a b d))) →
      (∀ n v, p (.unknown n v) (g (.unknown n v))) →
      ((∀ f ∈ ts ++ us, p f (g f)) ↔ ∀ f ∈ us, p f (g f)) := by
    intro α p g h1 h2
    refine ⟨fun h' f hf => h' f (by simp [hf]), fun h' f hf => ?_⟩
    rcases List.mem_append.mp hf with hf | hf
    · rcases h f hf with ⟨a, b, d, rfl⟩ | ⟨n, v, rfl⟩
      · exact h1 a b d
      · exact h2 n v
    · exact h' f hf
  unfold Missing
  rw [key (p := fun _ x => x = none) (g := fromOf) (fun _ _ _ => rfl) fun _ _ => rfl,
    key (p := fun _ x => x = none) (g := dateOf) (fun _ _ _ => rfl) fun _ _ => rfl,
    key (p := fun _ x => x = none) (g := senderOf) (fun _ _ _ => rfl) fun _ _ => rfl,
    key (p := fun _ x => ∀ authors, x = some authors → authors.length ≠ 1) (g := fromOf) (fun _ _ _ => nofun) fun _ _ => nofun]

theorem Silent.email {ts ts' us : List Field} {b : Option Bytes} {e : Email} (h : Silent ts) (h' : Silent ts')
    (he : IsEmail c (ts ++ us) b e) : IsEmail c (ts' ++ us) b
      { e with trace := (ts' ++ us).filterMap traceOf, unknownFields := (ts' ++ us).filterMap unknownOf } where
  «from» := by rw [h'.findSome (fun _ _ _ => rfl) fun _ _ => rfl, ← h.findSome (fun _ _ _ => rfl) fun _ _ => rfl]; exact he.from
  date := by rw [h'.findSome (fun _ _ _ => rfl) fun _ _ => rfl, ← h.findSome (fun _ _ _ => rfl) fun _ _ => rfl]; exact he.date
  sender := by
    have := he.sender
    rw [h.findSome (fun _ _ _ => rfl) fun _ _ => rfl, h.findSome (fun _ _ _ => rfl) fun _ _ => rfl] at this
    rw [h'.findSome (fun _ _ _ => rfl) fun _ _ => rfl, h'.findSome (fun _ _ _ => rfl) fun _ _ => rfl]
    exact this
  subject := by rw [h'.findSome (fun _ _ _ => rfl) fun _ _ => rfl, ← h.findSome (fun _ _ _ => rfl) fun _ _ => rfl]; exact he.subject
  to := by rw [h'.findSome (fun _ _ _ => rfl) fun _ _ => rfl, ← h.findSome (fun _ _ _ => rfl) fun _ _ => rfl]; exact he.to
  cc := by rw [h'.findSome (fun _ _ _ => rfl) fun _ _ => rfl, ← h.findSome (fun _ _ _ => rfl) fun _ _ => rfl]; exact he.cc
  bcc := by rw [h'.findSome (fun _ _ _ => rfl) fun _ _ => rfl, ← h.findSome (fun _ _ _ => rfl) fun _ _ => rfl]; exact he.bcc
  messageId := by
    rw [h'.findSome (fun _ _ _ => rfl) fun _ _ => rfl, ← h.findSome (fun _ _ _ => rfl) fun _ _ => rfl]; exact he.messageId
  inReplyTo := by
    rw [h'.findSome (fun _ _ _ => rfl) fun _ _ => rfl, ← h.findSome (fun _ _ _ => rfl) fun _ _ => rfl]; exact he.inReplyTo
  references := by
    rw [h'.findSome (fun _ _ _ => rfl) fun _ _ => rfl, ← h.findSome (fun _ _ _ => rfl) fun _ _ => rfl]; exact he.references
  replyTo := by
    rw [h'.findSome (fun _ _ _ => rfl) fun _ _ => rfl, ← h.findSome (fun _ _ _ => rfl) fun _ _ => rfl]; exact he.replyTo
  comments := by
    show e.comments = _
    rw [h'.filterMap (fun _ _ _ => rfl) fun _ _ => rfl, ← h.filterMap (fun _ _ _ => rfl) fun _ _ => rfl]; exact he.comments
  keywords := by
    rw [h'.flatMap (fun _ _ _ => rfl) fun _ _ => rfl, ← h.flatMap (fun _ _ _ => rfl) fun _ _ => rfl]; exact he.keywords
  trace := rfl
  unknownFields := rfl
  body := he.body
  noEntity := he.noEntity
  entity := by
    intro hm
    have := he.entity hm
    rw [h.findSome (fun _ _ _ => rfl) fun _ _ => rfl, h.findSome (fun _ _ _ => rfl) fun _ _ => rfl,
      h.findSome (fun _ _ _ => rfl) fun _ _ => rfl, h.findSome (fun _ _ _ => rfl) fun _ _ => rfl,
      h.findSome (fun _ _ _ => rfl) fun _ _ => rfl] at this
    rw [h'.findSome (fun _ _ _ => rfl) fun _ _ => rfl, h'.findSome (fun _ _ _ => rfl) fun _ _ => rfl,
      h'.findSome (fun _ _ _ => rfl) fun _ _ => rfl, h'.findSome (fun _ _ _ => rfl) fun _ _ => rfl,
      h'.findSome (fun _ _ _ => rfl) fun _ _ => rfl]
    exact this

/-! ### Lines before trace blocks -/

theorem received_first {l i : Bytes} {v : List ReceivedToken × DateTime} {r : Bytes} {ts : List Field} (ht : c.feat.trace = true)
    (hl : received c (l ++ i) = .ok (i, v)) (hr : ∃ e, matchParsers i (traceFieldParsers c) = .err e)
    (h : traces c i = .ok (r, ts)) :
    (∃ rc rs ts', ts = .trace none rc rs :: ts' ∧ traces c (l ++ i) = .ok (r, .trace none (v :: rc) rs :: ts')) ∨
    ((∀ rc rs ts', ts ≠ .trace none rc rs :: ts') ∧ traces c (l ++ i) = .ok (r, .trace none [v] [] :: ts)) := by
  have hlen := received_lines.shrinks _ _ _ hl
  obtain ⟨e0, he0⟩ := received_not_returnPath hl
  have first : optional (l ++ i) (returnPath c) = .ok (l ++ i, none) := by simp [optional, he0]
  unfold traces at h ⊢
  rw [if_pos ht] at h ⊢
  unfold many at h
  cases hi : received c i with
  | abort k =>
    exfalso
    have hp : ∃ e, returnPath c i = .err e := by
      refine returnPath_lines.other _ fun hm => ?_
      obtain ⟨e, he⟩ := received_lines.other i fun hm' => by
        rcases List.prefix_or_prefix_of_prefix hm hm' with h | h <;> exact absurd h (by decide)
      rw [he] at hi; cases hi
    obtain ⟨e, he⟩ := hp
    have : traceBlock c i = .abort k := by
      unfold traceBlock trace
      simp only [optional, he, ok_bind, many1, hi]
      rfl
    unfold manyLoop at h
    rw [this] at h
    cases h
  | err e =>
    right
    have hb : traceBlock c (l ++ i) = .ok (i, .trace none [v] []) := by
      unfold traceBlock trace
      simp only [first, ok_bind, many1, hl]
      rw [manyLoop_err ⟨e, hi⟩]
      simp only [ok_bind, many]
      rw [manyLoop_err hr]
      rfl
    refine ⟨?_, ?_⟩
    · rintro rc rs ts' rfl
      unfold manyLoop at h
      cases hx : traceBlock c i with
      | abort k => rw [hx] at h; cases h
      | err e => rw [hx] at h; cases h
      | ok y =>
        obtain ⟨r', f⟩ := y
        rw [hx] at h
        dsimp only at h
        obtain ⟨⟨r'', fs⟩, -, h⟩ := bind_eq_ok.1 h
        cases h
        unfold traceBlock trace at hx
        obtain ⟨⟨r1, w1⟩, h1, h2⟩ := bind_eq_ok.1 hx
        obtain ⟨⟨r2, w2⟩, h3, h4⟩ := bind_eq_ok.1 h1
        obtain ⟨⟨r3, w3⟩, h5, h6⟩ := bind_eq_ok.1 h4
        obtain ⟨⟨r4, w4⟩, h7, h8⟩ := bind_eq_ok.1 h2
        cases h6
        cases h8
        unfold optional at h3
        cases hy : returnPath c i with
        | abort k => rw [hy] at h3; cases h3
        | ok y => rw [hy] at h3; cases h3
        | err e' =>
          rw [hy] at h3
          cases h3
          unfold many1 at h5
          rw [hi] at h5
          cases h5
    · unfold many manyLoop
      rw [hb]
      dsimp only
      rw [manyLoop_fuel h (by omega)]
      rfl
  | ok y =>
    left
    obtain ⟨i', v'⟩ := y
    have hlen' := received_lines.shrinks _ _ _ hi
    obtain ⟨e1, he1⟩ := received_not_returnPath hi
    unfold manyLoop at h
    cases hx : traceBlock c i with
    | abort k => rw [hx] at h; cases h
    | err e =>
      exfalso
      unfold traceBlock trace at hx
      simp only [optional, he1, ok_bind, many1, hi] at hx
      cases hm : manyLoop (received c) (i'.length + 1) i' with
      | abort k => rw [hm] at hx; cases hx
      | err e' => exact manyLoop_no_err _ _ _ hm
      | ok y =>
        rw [hm] at hx
        simp only [ok_bind, many] at hx
        cases hm' : manyLoop (fun input => matchParsers input (traceFieldParsers c)) (y.1.length + 1) y.1 with
        | abort k => rw [hm'] at hx; cases hx
        | err e' => exact manyLoop_no_err _ _ _ hm'
        | ok y => rw [hm'] at hx; cases hx
    | ok y =>
      obtain ⟨r', f⟩ := y
      rw [hx] at h
      dsimp only at h
      obtain ⟨⟨r'', fs⟩, h9, h⟩ := bind_eq_ok.1 h
      cases h
      unfold traceBlock trace at hx
      simp only [optional, he1, ok_bind, many1, hi] at hx
      obtain ⟨⟨r1, w1⟩, h1, h2⟩ := bind_eq_ok.1 hx
      obtain ⟨⟨r2, w2⟩, h3, h4⟩ := bind_eq_ok.1 h1
      obtain ⟨⟨r5, w5⟩, h3', h4'⟩ := bind_eq_ok.1 h3
      cases h4'
      cases h4
      obtain ⟨⟨r4, w4⟩, h7, h8⟩ := bind_eq_ok.1 h2
      cases h8
      refine ⟨_, _, _, rfl, ?_⟩
      have hb : traceBlock c (l ++ i) = .ok (r4, .trace none (v :: v' :: w5) w4) := by
        unfold traceBlock trace
        simp only [first, ok_bind, many1, hl]
        have : manyLoop (received c) (i.length + 1) i = .ok (r5, v' :: w5) := by
          unfold manyLoop
          rw [hi]
          dsimp only
          rw [manyLoop_fuel h3' (by omega)]
          rfl
        rw [this]
        simp only [ok_bind]
        rw [h7]
        rfl
      unfold many manyLoop
      rw [hb]
      dsimp only
      rw [manyLoop_fuel h9 (by omega)]
      rfl

theorem accepted_lines {i : Bytes} {e : Email} (hc : c.feat.compiles) (h : Email.parse c i = .ok e) :
    ∃ t r ts us, fields c i = .ok (t, ts ++ us) ∧ traces c i = .ok (r, ts) ∧ many r (field c) = .ok (t, us) ∧
      Ended t ∧ Stops wsp i ∧ (∀ f ∈ ts, ∃ a b d, f = .trace a b d) ∧ e.trace = ts.filterMap traceOf ∧
      e.unknownFields = us.filterMap unknownOf ∧
      ∀ j ts', Silent ts' → fields c j = .ok (t, ts' ++ us) → Email.parse c j =
        .ok { e with trace := ts'.filterMap traceOf, unknownFields := ts'.filterMap unknownOf ++ e.unknownFields } := by
  obtain ⟨fs, b, hp, -, h1, h2, h3⟩ := parse_ok c hc h
  obtain ⟨t, h4, h5⟩ := parseMessage_content.1 hp
  obtain ⟨r, ts, us, rfl, h6, h7, h8⟩ := fields_split h4
  have h9 : many r (field c) = .ok (t, us) := by
    unfold fields at h4
    rw [h6] at h4
    simp only [ok_bind] at h4
    obtain ⟨⟨t', us'⟩, h9, h10⟩ := bind_eq_ok.1 h4
    simp only [Outcome.ok.injEq, Prod.mk.injEq, List.append_cancel_left_eq] at h10
    obtain ⟨rfl, rfl⟩ := h10
    exact h9
  have htr : ∀ f ∈ ts, ∃ a b d, f = .trace a b d := fun f hf => by
    obtain ⟨a, b, d, h, -⟩ := h7 f hf
    exact ⟨a, b, d, h⟩
  have hs : Silent ts := fun f hf => .inl (htr f hf)
  have hus : us.filterMap traceOf = [] := List.filterMap_eq_nil_iff.2 fun f hf => by
    cases f with
    | trace a b d => exact absurd hf (h8 a b d)
    | _ => rfl
  have hts : ts.filterMap unknownOf = [] := List.filterMap_eq_nil_iff.2 fun f hf => by
    obtain ⟨a, b, d, rfl⟩ := htr f hf
    rfl
  have hst : Stops wsp i := by
    obtain ⟨w, rfl, hw, -⟩ := fields_end c hc h4
    obtain ⟨ls, rfl, hl⟩ := (lines_headerBlock (strOk_utf8 c) hc.2 _ _ hw).1
    cases ls with
    | nil => exact (contentOf_ended h5).stops
    | cons l ls =>
      obtain ⟨-, name, t, rfl, hne, hn⟩ := hl l (by simp)
      cases name with
      | nil => exact absurd rfl hne
      | cons x name =>
        intro y s e
        simp only [List.map_cons, List.flatten_cons, List.cons_append, List.cons.injEq] at e
        obtain ⟨rfl, -⟩ := e
        exact (by decide +kernel : ∀ b, ftext b = true → wsp b = false) x (hn x (by simp))
  have htrace : e.trace = ts.filterMap traceOf := by rw [h3.trace, List.filterMap_append, hus, List.append_nil]
  have hunk : e.unknownFields = us.filterMap unknownOf := by
    rw [h3.unknownFields, List.filterMap_append, hts, List.nil_append]
  refine ⟨t, r, ts, us, h4, h6, h9, contentOf_ended h5, hst, htr, htrace, hunk, fun j ts' hs' hj => ?_⟩
  rw [email_parse_eq, parseMessage_content.2 ⟨t, hj, h5⟩]
  show emailFrom c (ts' ++ us) b = _
  rw [emailFrom_iff hc]
  have hm := hs.email c hs' h3
  simp only [List.filterMap_append, hus, List.append_nil, ← hunk] at hm
  refine .email ?_ ?_ hm
  · rw [hs'.noDuplicate, ← hs.noDuplicate]; exact h1
  · intro n hn
    rw [hs'.missing, ← hs.missing c] at hn
    exact h2 n hn

theorem returnPath_first {l i : Bytes} {v : Option EmailAddress} {rc : List (List ReceivedToken × DateTime)}
    {rs : List TraceField} {r : Bytes} {ts : List Field} (ht : c.feat.trace = true)
    (hl : returnPath c (l ++ i) = .ok (i, v)) (h : traces c i = .ok (r, .trace none rc rs :: ts)) :
    traces c (l ++ i) = .ok (r, .trace (some v) rc rs :: ts) := by
  have hlen := returnPath_lines.shrinks _ _ _ hl
  unfold traces at h ⊢
  rw [if_pos ht] at h ⊢
  unfold many manyLoop at h
  cases hx : traceBlock c i with
  | abort k => rw [hx] at h; cases h
  | err e => rw [hx] at h; cases h
  | ok y =>
    obtain ⟨r', f⟩ := y
    rw [hx] at h
    dsimp only at h
    obtain ⟨⟨r'', fs⟩, h9, h⟩ := bind_eq_ok.1 h
    cases h
    unfold traceBlock trace at hx
    obtain ⟨⟨r1, w1⟩, h1, h2⟩ := bind_eq_ok.1 hx
    obtain ⟨⟨r2, w2⟩, h3, h4⟩ := bind_eq_ok.1 h1
    obtain ⟨⟨r3, w3⟩, h5, h6⟩ := bind_eq_ok.1 h4
    obtain ⟨⟨r4, w4⟩, h7, h8⟩ := bind_eq_ok.1 h2
    cases h6
    cases h8
    unfold optional at h3
    cases hy : returnPath c i with
    | abort k => rw [hy] at h3; cases h3
    | ok y => rw [hy] at h3; cases h3
    | err e' =>
      rw [hy] at h3
      cases h3
      have hb : traceBlock c (l ++ i) = .ok (r', .trace (some v) w3 rs) := by
        unfold traceBlock trace
        simp only [optional, hl, ok_bind]
        rw [h5]
        simp only [ok_bind]
        rw [h7]
        rfl
      unfold many manyLoop
      rw [hb]
      dsimp only
      rw [manyLoop_fuel h9 (by omega)]
      rfl

theorem traceName_plain {n : Bytes} {f : Features} (h : n ∈ traceNames) : ¬ Recognized f n := by
  simp only [traceNames, List.mem_cons, List.not_mem_nil, or_false] at h
  rcases h with rfl | rfl | rfl | rfl | rfl | rfl | rfl | rfl | rfl <;> unfold Recognized <;> simp

theorem name_of_prefix {n m x y : Bytes} (hn : ∀ b ∈ n, ftext b = true) (hm : ∀ b ∈ m, ftext b = true)
    (h : n ++ 58 :: x = m ++ 58 :: y) : n = m := by
  have key : ∀ b : UInt8, ftext b = true → b ≠ 58 := by decide +kernel
  have h1 : ∀ {n x : Bytes}, (∀ b ∈ n, ftext b = true) → (n ++ 58 :: x).takeWhile (· != 58) = n := by
    intro n x hn
    rw [List.takeWhile_append_of_pos fun b hb => by simpa using key b (hn b hb)]
    simp
  rw [← h1 (x := x) hn, h, h1 hm]

theorem LinesOf.append {ls ls' : List Bytes} {fs fs' : List Field} (h : LinesOf c ls fs) (h' : LinesOf c ls' fs') :
    LinesOf c (ls ++ ls') (fs ++ fs') := by
  induction h with
  | nil => exact h'
  | cons h _ ih => exact .cons h ih

/-- No blocks are read exactly if nothing is read. -/
theorem traces_nothing {i r : Bytes} {ts : List Field} (h : traces c i = .ok (r, ts)) : r = i ↔ ts = [] := by
  unfold traces at h
  split at h
  · unfold many at h
    constructor
    · rintro rfl
      rw [manyLoop_err (manyLoop_until h)] at h
      cases h
      rfl
    · rintro rfl
      unfold manyLoop at h
      split at h
      · obtain ⟨_, _, h⟩ := bind_eq_ok.1 h
        cases h
      · cases h
        rfl
      · cases h
  · cases h
    simp

/-- The lines of trace blocks as unknown fields. -/
theorem kept_lines {ls : List Bytes} (hls : ∀ l ∈ ls, ∃ name x w, HeaderText name x w l) (ht : ∀ l ∈ ls, TraceLine l) :
    ∃ xs : List (Bytes × Bytes), LinesOf c ls (xs.map fun y => .unknown y.1 y.2) ∧ xs.length = ls.length ∧
      (∀ (k : Nat) l y, ls[k]? = some l → xs[k]? = some y → Kept c l y) ∧ ∀ y ∈ xs, y.1.map asciiLower ∈ traceNames := by
  induction ls with
  | nil => exact ⟨[], .nil, rfl, fun k l y h => by simp at h, by simp⟩
  | cons l ls ih =>
    obtain ⟨xs, h1, h2, h3, h4⟩ := ih (fun l h => hls l (.tail _ h)) fun l h => ht l (.tail _ h)
    obtain ⟨name, x, w, h5⟩ := hls l (by simp)
    obtain ⟨-, n, h6, h7⟩ := ht l (by simp)
    have hn : name.map asciiLower = n := by
      obtain ⟨u, hu⟩ := h7
      rw [h5.text] at hu
      refine (name_of_prefix (n := n) (m := name.map asciiLower) (x := u) (y := (w ++ CRLF).map asciiLower) ?_ ?_ ?_).symm
      · exact (by decide +kernel : ∀ n ∈ traceNames, ∀ b ∈ n, ftext b = true) n h6
      · intro b hb
        obtain ⟨b', hb', rfl⟩ := List.mem_map.1 hb
        exact (by decide +kernel : ∀ b, ftext b = true → ftext (asciiLower b) = true) b' (h5.name_chars b' hb')
      · have e1 : b! ":" = [58] := rfl
        have e2 : asciiLower 58 = 58 := rfl
        simpa [e1, e2] using hu
    obtain ⟨v, h8, h9⟩ := C11_unknown c name x w l [] h5 (traceName_plain (hn ▸ h6)) stops_nil
    rw [List.append_nil] at h8
    refine ⟨(name, v) :: xs, .cons h8 h1, by simp [h2], ?_, ?_⟩
    · intro k l' y hk hk'
      cases k with
      | zero =>
        simp only [List.getElem?_cons_zero, Option.some.injEq] at hk hk'
        subst hk hk'
        exact ⟨x, w, h5, h9⟩
      | succ k => exact h3 k l' y hk hk'
    · intro y hy
      rcases List.mem_cons.1 hy with rfl | hy
      · rw [hn]; exact h6
      · exact h4 y hy

/-! ### C90 -/

/-- A relay adds a `Received` line: the message is still accepted, and the line is the first of the first block, without effect
on anything else. -/
theorem C90_received (hc : c.feat.compiles) (ht : c.feat.trace = true) (i l : Bytes) (e : Email)
    (v : List ReceivedToken × DateTime) (h : Email.parse c i = .ok e) (hl : received c l = .ok ([], v))
    (hr : ¬ b! "resent-" <+: i.map asciiLower) :
    Email.parse c (l ++ i) = .ok { e with trace := addReceived v e.trace } := by
  obtain ⟨t, r, ts, us, h1, h2, h3, h4, h5, h6, h7, -, h9⟩ := accepted_lines c hc h
  have key : ∀ ts', (∀ f ∈ ts', ∃ a b d, f = .trace a b d) → ts'.filterMap traceOf = addReceived v e.trace →
      traces c (l ++ i) = .ok (r, ts') → Email.parse c (l ++ i) = .ok { e with trace := addReceived v e.trace } := by
    intro ts' h10 h11 h12
    have := h9 (l ++ i) ts' (fun f hf => .inl (h10 f hf)) (by
      unfold fields
      rw [h12]
      simp only [ok_bind]
      rw [h3]
      rfl)
    have hts : ts'.filterMap unknownOf = [] := List.filterMap_eq_nil_iff.2 fun f hf => by
      obtain ⟨a, b, d, rfl⟩ := h10 f hf
      rfl
    rw [this, h11, hts]
    rfl
  rcases received_first c ht (received_lines.followed hl h5) (resent_lines.other _ hr) h2 with
    ⟨rc, rs, ts', rfl, h8⟩ | ⟨h8, h10⟩
  · refine key _ ?_ ?_ h8
    · intro f hf
      rcases List.mem_cons.1 hf with rfl | hf
      · exact ⟨_, _, _, rfl⟩
      · exact h6 f (.tail _ hf)
    · rw [h7]; rfl
  · refine key _ ?_ ?_ h10
    · intro f hf
      rcases List.mem_cons.1 hf with rfl | hf
      · exact ⟨_, _, _, rfl⟩
      · exact h6 f hf
    · rw [h7]
      cases ts with
      | nil => rfl
      | cons f ts =>
        obtain ⟨a, b, d, rfl⟩ := h6 f (by simp)
        cases a with
        | none => exact absurd rfl (h8 b d ts)
        | some a => rfl

/-- The relay that delivers the message adds a `Return-Path` line: it becomes that of the first block, if the message begins with a
`Received` line. -/
theorem C90_return_path (hc : c.feat.compiles) (i l : Bytes) (e : Email) (v : Option EmailAddress)
    (rc : List (List ReceivedToken × DateTime)) (rs : List TraceField) (bs : List TraceOf) (h : Email.parse c i = .ok e)
    (he : e.trace = (none, rc, rs) :: bs) (hl : returnPath c l = .ok ([], v)) :
    Email.parse c (l ++ i) = .ok { e with trace := (some v, rc, rs) :: bs } := by
  obtain ⟨t, r, ts, us, h1, h2, h3, h4, h5, h6, h7, -, h9⟩ := accepted_lines c hc h
  have ht : c.feat.trace = true := by
    cases ht : c.feat.trace with
    | true => rfl
    | false =>
      simp only [traces, ht, Bool.false_eq_true, if_false] at h2
      cases h2
      rw [h7] at he
      cases he
  cases ts with
  | nil => rw [h7] at he; cases he
  | cons f ts =>
    obtain ⟨a, b, d, rfl⟩ := h6 f (by simp)
    rw [h7] at he
    obtain ⟨e1, e2⟩ := List.cons.inj (show (a, b, d) :: ts.filterMap traceOf = (none, rc, rs) :: bs from he)
    cases e1
    have h8 := returnPath_first c ht (returnPath_lines.followed hl h5) h2
    have hts : ts.filterMap unknownOf = [] := List.filterMap_eq_nil_iff.2 fun f hf => by
      obtain ⟨a, b, d, rfl⟩ := h6 f (.tail _ hf)
      rfl
    have := h9 (l ++ i) (.trace (some v) rc rs :: ts) (fun f hf => .inl (by
      rcases List.mem_cons.1 hf with rfl | hf
      · exact ⟨_, _, _, rfl⟩
      · exact h6 f (.tail _ hf))) (by
      unfold fields
      rw [h8]
      simp only [ok_bind]
      rw [h3]
      rfl)
    rw [this]
    show Outcome.ok { e with
      trace := (some v, rc, rs) :: ts.filterMap traceOf
      unknownFields := ts.filterMap unknownOf ++ e.unknownFields } = _
    rw [e2, hts]
    rfl

/-- Any other line at the top, such as `Delivered-To` or `DKIM-Signature`: the message is still accepted, but its trace is lost.
The lines of the trace are returned as unknown fields, one each. -/
theorem C90_hidden (hc : c.feat.compiles) (ls : List Bytes) (t : Bytes) (hls : ∀ l ∈ ls, ∃ name x w, HeaderText name x w l)
    (ht : t = [] ∨ CRLF <+: t) (e : Email) (h : Email.parse c (ls.flatten ++ t) = .ok e) (name x w l : Bytes)
    (hl : HeaderText name x w l) (hn : ¬ Recognized c.feat (name.map asciiLower))
    (hn' : name.map asciiLower ∉ [b! "received", b! "return-path"]) :
    ∃ (v : Bytes) (xs : List (Bytes × Bytes)),
      Email.parse c (l ++ (ls.flatten ++ t)) =
        .ok { e with trace := [], unknownFields := (name, v) :: (xs ++ e.unknownFields) } ∧
      Kept c l (name, v) ∧ (xs = [] ↔ e.trace = []) ∧ (∀ (k : Nat) y, xs[k]? = some y → ∃ l, ls[k]? = some l ∧ Kept c l y) ∧
      ∀ y ∈ xs, y.1.map asciiLower ∈ traceNames := by
  have ht : Ended t := by
    rcases ht with rfl | ⟨u, rfl⟩
    · exact .nil
    · exact .crlf u
  obtain ⟨t', r, ts, us, h1, h2, h3, h4, h5, h6, h7, h8, h9⟩ := accepted_lines c hc h
  obtain ⟨pre, post, ts', us', e1, hpre, hoff, h10, hl2, e2⟩ := fields_hlines h1 h4
  rw [h2] at h10
  cases h10
  have e2 := List.append_cancel_left e2
  subst e2
  have key : ls = pre ++ post ∧ t = t' := by
    refine HLine.split (fun l h => IsHeaderText.hline c (hls l h)) ?_ ?_ ht h4
    · exact fun l h => (List.mem_append.1 h).elim (fun h => (hpre l h).1) (hl2.hline l)
    · rw [List.flatten_append, List.append_assoc, ← e1]
  obtain ⟨rfl, rfl⟩ := key
  obtain ⟨xs, hx1, hx2, hx3, hx4⟩ := kept_lines c (ls := pre) (fun l h => hls l (by simp [h])) hpre
  obtain ⟨v, hv, hv'⟩ := C11_unknown c name x w l [] hl hn stops_nil
  rw [List.append_nil] at hv
  have hall : LinesOf c (l :: (pre ++ post)) (.unknown name v :: ((xs.map fun y => .unknown y.1 y.2) ++ us)) :=
    .cons hv (hx1.append c hl2)
  have hm := hall.many ht.stops (field_ended ht)
  have hnone : ∀ m : Bytes, m ∈ [b! "received", b! "return-path"] → ¬ (m ++ b! ":") <+: (l ++ ((pre ++ post).flatten ++ t)).map asciiLower := by
    intro m hm hp
    obtain ⟨u, hu⟩ := hp
    rw [hl.text] at hu
    have : m = name.map asciiLower := by
      refine name_of_prefix (x := u) (y := (w ++ CRLF ++ ((pre ++ post).flatten ++ t)).map asciiLower) ?_ ?_ ?_
      · exact (by decide +kernel : ∀ n ∈ [b! "received", b! "return-path"], ∀ b ∈ n, ftext b = true) m hm
      · intro b hb
        obtain ⟨b', hb', rfl⟩ := List.mem_map.1 hb
        exact (by decide +kernel : ∀ b, ftext b = true → ftext (asciiLower b) = true) b' (hl.name_chars b' hb')
      · have e1 : b! ":" = [58] := rfl
        have e2 : asciiLower 58 = 58 := rfl
        simpa [e1, e2] using hu
    exact hn' (this ▸ hm)
  obtain ⟨er1, hr1⟩ := received_lines (c := c) |>.other _ (hnone (b! "received") (by simp))
  obtain ⟨er2, hr2⟩ := returnPath_lines (c := c) |>.other _ (hnone (b! "return-path") (by simp))
  have htr : traces c (l ++ ((pre ++ post).flatten ++ t)) = .ok (l ++ ((pre ++ post).flatten ++ t), []) := by
    unfold traces
    split
    · unfold many
      refine manyLoop_err ⟨er1, ?_⟩ 
      unfold traceBlock trace
      simp only [optional, hr2, ok_bind, many1, hr1]
      rfl
    · rfl
  have hres := h9 (l ++ ((pre ++ post).flatten ++ t)) (.unknown name v :: xs.map fun y => .unknown y.1 y.2) (fun f hf => .inr (by
    rcases List.mem_cons.1 hf with rfl | hf
    · exact ⟨_, _, rfl⟩
    · obtain ⟨y, -, rfl⟩ := List.mem_map.1 hf
      exact ⟨_, _, rfl⟩)) (by
    unfold fields
    rw [htr]
    simp only [ok_bind]
    rw [List.flatten_cons, List.append_assoc] at hm
    rw [hm]
    rfl)
  have e3 : (xs.map fun y => Field.unknown y.1 y.2).filterMap traceOf = [] := by simp [traceOf]
  have e4 : (xs.map fun y => Field.unknown y.1 y.2).filterMap unknownOf = xs := by simp [List.filterMap_map, Function.comp_def, unknownOf]
  refine ⟨v, xs, ?_, ⟨x, w, hl, hv'⟩, ?_, ?_, hx4⟩
  · rw [hres]
    show Outcome.ok { e with
      trace := (List.map (fun y : Bytes × Bytes => Field.unknown y.1 y.2) xs).filterMap traceOf
      unknownFields := (name, v) :: (List.map (fun y : Bytes × Bytes => Field.unknown y.1 y.2) xs).filterMap unknownOf ++ e.unknownFields } = _
    rw [e3, e4]
    rfl
  · have e5 : xs = [] ↔ pre = [] := by rw [← List.length_eq_zero_iff, hx2, List.length_eq_zero_iff]
    have e6 : e.trace = [] ↔ ts = [] := by
      rw [h7]
      constructor
      · intro h
        cases ts with
        | nil => rfl
        | cons f ts => obtain ⟨a, b, d, rfl⟩ := h6 f (by simp); cases h
      · rintro rfl; rfl
    rw [e5, e6, ← traces_nothing c h2, e1]
    constructor
    · rintro rfl; rfl
    · intro h
      cases pre with
      | nil => rfl
      | cons l pre =>
        have := congrArg List.length h
        obtain ⟨⟨u, hu⟩, -⟩ := (hpre l (by simp)).1.shape
        rw [hu] at this
        simp at this
        omega
  · intro k y hk
    obtain ⟨hk1, -⟩ := List.getElem?_eq_some_iff.1 hk
    have hk2 : k < pre.length := by omega
    refine ⟨pre[k], by rw [List.getElem?_append_left hk2]; exact List.getElem?_eq_getElem hk2, ?_⟩
    exact hx3 k _ y (List.getElem?_eq_getElem hk2) hk

/-! Examples -/

/-- Traces and unknown fields, as numbers of `Received` and resent lines and names. -/
private def seen (i : Bytes) : Option (List (Bool × Nat × Nat) × List Bytes) :=
  (outcomeValue (Email.parse (Cfg.concrete .full) i)).map fun e =>
    (e.trace.map fun x => (x.1.isSome, x.2.1.length, x.2.2.length), e.unknownFields.map (·.1))

private def msg : Bytes := b! "From: a@b\r\nDate: 1 Jan 2020 00:00:00 +0000\r\n\r\nx"
private def rcv : Bytes := b! "Received: from a by b; 1 Jan 2020 00:00:00 +0000\r\n"
private def rp : Bytes := b! "Return-Path: <a@b>\r\n"

example : [seen msg, seen (rcv ++ msg), seen (rcv ++ rcv ++ msg), seen (rp ++ rcv ++ rcv ++ msg), seen (rcv ++ rp ++ rcv ++ msg)] =
    [some ([], []), some ([(false, 1, 0)], []), some ([(false, 2, 0)], []), some ([(true, 2, 0)], []),
      some ([(false, 1, 0), (true, 1, 0)], [])] := by decide +kernel

/-- The line of a signature or of a delivery above the trace. -/
example : seen (b! "Delivered-To: c@d\r\n" ++ rp ++ rcv ++ msg) = some ([], [b! "Delivered-To", b! "Return-Path", b! "Received"]) := by
  decide +kernel

/-- Why `C90_received` excludes resent headers: these are unknown fields until a `Received` line is above them. -/
example : [seen (b! "Resent-To: c@d\r\n" ++ msg), seen (rcv ++ b! "Resent-To: c@d\r\n" ++ msg)] =
    [some ([], [b! "Resent-To"]), some ([(false, 1, 1)], [])] := by decide +kernel

/-- The lines of the examples. -/
example : (∃ v, received (Cfg.concrete .full) rcv = .ok ([], v)) ∧ (∃ v, returnPath (Cfg.concrete .full) rp = .ok ([], v)) ∧
    HeaderText (b! "Delivered-To") (b! " c@d") (b! " c@d") (b! "Delivered-To: c@d\r\n") := by
  refine ⟨?_, ?_, rfl, by simp, by decide +kernel, ?_⟩
  · have : (match received (Cfg.concrete .full) rcv with | .ok ([], _) => true | _ => false) = true := by decide +kernel
    split at this
    · exact ⟨_, by assumption⟩
    · cases this
  · have : (match returnPath (Cfg.concrete .full) rp with | .ok ([], _) => true | _ => false) = true := by decide +kernel
    split at this
    · exact ⟨_, by assumption⟩
    · cases this
  · exact .space (s := b! " ") (by decide +kernel) (fun b s e => by cases e; decide +kernel)
      (.char (by decide +kernel) (.char (by decide +kernel) (.char (by decide +kernel) .nil)))

end EmailParser
