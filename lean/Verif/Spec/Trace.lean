import Verif.Model.Fields
import Verif.Spec.Chars
/-
Header lines of trace blocks.
-/
namespace EmailParser.Spec

variable {α : Type}

/-- The lines `ls`, each when read alone, have the values `vs`. -/
inductive Alone (p : Bytes → Res α) : List Bytes → List α → Prop
  | nil : Alone p [] []
  | cons {l : Bytes} {v : α} {ls : List Bytes} {vs : List α} :
    p l = .ok ([], v) → Alone p ls vs → Alone p (l :: ls) (v :: vs)

/-- The text begins with an accepted `Received` line, or with accepted `Return-Path` and `Received` lines. -/
def StartsTrace (c : Cfg) (i : Bytes) : Prop :=
  (∃ r v, received c i = .ok (r, v)) ∨ ∃ r v r' v', returnPath c i = .ok (r, v) ∧ received c r = .ok (r', v')

/-- The names of trace headers, in lower case. -/
def traceNames : List Bytes :=
  [b! "return-path", b! "received", b! "resent-date", b! "resent-from", b! "resent-sender", b! "resent-to",
    b! "resent-cc", b! "resent-bcc", b! "resent-message-id"]

end EmailParser.Spec
