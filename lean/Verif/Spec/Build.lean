import Verif.Model.Basic
/-
Builds of the same sources.  A configuration of the model fixes what is compiled (the features and the libraries `textcode`
and `str::to_lowercase`), and also what the sources do not say: the room on the stack, whether arithmetic is checked (debug
builds) and the order in which hash maps are visited (drawn at random by every run).
-/
namespace EmailParser.Spec

/-- The same is compiled. -/
structure SameSources (c c' : Cfg) : Prop where
  feat : c'.feat = c.feat
  textcode : c'.textcode = c.textcode
  toLowercase : c'.toLowercase = c.toLowercase

/-- The program is stopped before it returns. -/
def Aborted {α : Type} (r : Outcome α) : Prop := ∃ k, r = .abort k

/-- The build without overflow checks and with this much room on the stack. -/
def withRoom (c : Cfg) (n : Nat) : Cfg := { c with stack := n, overflowChecks := false }

end EmailParser.Spec
