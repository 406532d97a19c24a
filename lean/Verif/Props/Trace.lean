import Verif.Proofs.Trace
import Verif.Props.Lines
/-
C47: when trace headers are reported as trace, and when as unknown fields.
-/
namespace EmailParser
open Spec

variable (c : Cfg)

/-- A header block contains a trace exactly if the feature `trace` is enabled and the block begins with an optional
`Return-Path` line and a `Received` line that are accepted. -/
theorem C47_trace_iff (i r : Bytes) (fs : List Field) (h : fields c i = .ok (r, fs)) :
    (∃ returnPath received resent, Field.trace returnPath received resent ∈ fs) ↔
      c.feat.trace = true ∧ StartsTrace c i :=
  fields_trace_iff h

/-- The traces come first, and each has at least one `Received` line. -/
theorem C47_traces_first (i r : Bytes) (fs : List Field) (h : fields c i = .ok (r, fs)) :
    ∃ ts us, fs = ts ++ us ∧ (∀ f ∈ ts, ∃ returnPath received resent, f = .trace returnPath received resent ∧
      received ≠ []) ∧ ∀ returnPath received resent, Field.trace returnPath received resent ∉ us := by
  obtain ⟨_, ts, us, h1, -, h2, h3⟩ := fields_split h
  exact ⟨ts, us, h1, h2, h3⟩

/-- An optional `Return-Path` line, one or more `Received` lines and any `Resent` lines, each of which is accepted
alone, followed by lines that do not begin with the name of a trace header, are read as one trace with exactly
these values, followed by the fields of the other lines. -/
theorem C47_block (hf : c.feat.trace = true) (rp : Option (Bytes × Option EmailAddress)) (rc rs ls : List Bytes)
    (vc : List (List ReceivedToken × DateTime)) (vs : List TraceField) (fs : List Field) (tail : Bytes)
    (hp : ∀ l v, rp = some (l, v) → returnPath c l = .ok ([], v)) (hc : Alone (received c) rc vc) (hne : rc ≠ [])
    (hs : Alone (fun i => matchParsers i (traceFieldParsers c)) rs vs) (hl : LinesOf c ls fs)
    (ht : tail = [] ∨ CRLF <+: tail) (hn : NoTraceName (ls.flatten ++ tail)) :
    fields c ((rp.map (·.1)).getD [] ++ rc.flatten ++ rs.flatten ++ ls.flatten ++ tail) =
      .ok (tail, .trace (rp.map (·.2)) vc vs :: fs) := by
  have he : Ended tail := by
    rcases ht with rfl | ⟨b, rfl⟩
    · exact .nil
    · exact .crlf b
  have hq : Quiet c (ls.flatten ++ tail) := hn.quiet c (hl.stops he.stops)
  have hb : traceBlock c ((rp.map (·.1)).getD [] ++ rc.flatten ++ rs.flatten ++ (ls.flatten ++ tail)) =
      .ok (ls.flatten ++ tail, .trace (rp.map (·.2)) vc vs) := by
    cases rp with
    | none => exact traceBlock_lines (vp := none) (rp := []) .nil hc hne hs hq
    | some a =>
      have := traceBlock_lines (vp := some a.2) (rp := [a.1]) (.cons (hp _ _ rfl) .nil) hc hne hs hq
      simpa using this
  have he' : ∃ e, traceBlock c (ls.flatten ++ tail) = .err e := by
    obtain ⟨e1, h1⟩ := hq.returnPath
    obtain ⟨e2, h2⟩ := hq.received
    exact ⟨e2, by simp [traceBlock, trace, optional, many1, h1, h2]⟩
  have hlen : (ls.flatten ++ tail).length <
      ((rp.map (·.1)).getD [] ++ rc.flatten ++ rs.flatten ++ (ls.flatten ++ tail)).length :=
    shrinks_of traceBlock_progress traceBlock_parses _ _ _ hb
  have hts : traces c ((rp.map (·.1)).getD [] ++ rc.flatten ++ rs.flatten ++ (ls.flatten ++ tail)) =
      .ok (ls.flatten ++ tail, [.trace (rp.map (·.2)) vc vs]) := by
    obtain ⟨e, he'⟩ := he'
    generalize hn : ((rp.map (·.1)).getD [] ++ rc.flatten ++ rs.flatten ++ (ls.flatten ++ tail)).length = n at hlen
    obtain ⟨n, rfl⟩ : ∃ m, n = m + 1 := ⟨n - 1, by omega⟩
    rw [traces, if_pos hf, many, hn, manyLoop, hb]
    dsimp only
    rw [manyLoop, he']
    rfl
  rw [List.append_assoc _ _ tail, fields, hts, ok_bind]
  dsimp only
  rw [C10_lines c ls fs tail hl ht]
  rfl

/-- Where no trace is read, trace headers are unknown fields, also when they are well-formed. -/
theorem C47_elsewhere (name x w l t : Bytes) (h : HeaderText name x w l) (hn : name.map asciiLower ∈ traceNames)
    (ht : Stops wsp t) :
    ∃ v, field c (l ++ t) = .ok (t, .unknown name v) ∧
      ((c.feat.unrecognizedHeaders = false ∨ ¬ b! "=?" <:+: x) → v = trimEnd x) := by
  refine C11_unknown c name x w l t h ?_ ht
  simp only [traceNames, List.mem_cons, List.not_mem_nil, or_false] at hn
  rcases hn with e | e | e | e | e | e | e | e | e <;> rw [e] <;> simp [Recognized]

/-- Used in the examples: the kinds of the fields, and for traces whether there is a return path, and the numbers
of `Received` and `Resent` lines. -/
def traceKinds : Res (List Field) → Option (List (String × Bool × Nat × Nat))
  | .ok (_, fs) => some (fs.map fun
    | .trace rp rc rs => ("trace", rp.isSome, rc.length, rs.length)
    | f => (fieldKind f, false, 0, 0))
  | _ => none

/-- A trace with all parts; two blocks, separated by `Return-Path`. -/
example : traceKinds (fields (Cfg.concrete .default) (b! "Return-Path: <>\r\nReceived: from a by b; 1 Jan 2020 00:00 +0000\r\nReceived: from x; 1 Jan 2020 00:00 +0000\r\nResent-To: a@b\r\nTo: a@b\r\n")) =
    some [("trace", true, 2, 1), ("To", false, 0, 0)] ∧
  traceKinds (fields (Cfg.concrete .default) (b! "Received: from x; 1 Jan 2020 00:00 +0000\r\nReturn-Path: <a@b>\r\nReceived: from x; 1 Jan 2020 00:00 +0000\r\n")) =
    some [("trace", false, 1, 0), ("trace", true, 1, 0)] := by decide +kernel

/-- A return path alone, resent headers alone, and a trace after another header are unknown fields. -/
example : traceKinds (fields (Cfg.concrete .default) (b! "Return-Path: <>\r\nTo: a@b\r\n")) =
    some [("unknown", false, 0, 0), ("To", false, 0, 0)] ∧
  traceKinds (fields (Cfg.concrete .default) (b! "Resent-To: a@b\r\nReceived: from x; 1 Jan 2020 00:00 +0000\r\n")) =
    some [("unknown", false, 0, 0), ("unknown", false, 0, 0)] := by decide +kernel

end EmailParser
