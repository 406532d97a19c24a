import Verif.Spec.Print
/-
How texts are laid out when encoded words and folds occur in them.  Nothing here refers to the
parsers.
-/
namespace EmailParser.Spec

/-- `t` does not begin with a character of the class. -/
def NotBefore (p : UInt8 → Bool) (t : Bytes) : Prop := ∀ b s, t = b :: s → p b = false

/-- How unstructured text is read when encoded words are decoded: every piece is preceded by optional
white space; a piece that does not begin with an encoded word extends to the next white space. -/
inductive Layout (c : Cfg) : Bytes → List Piece → Prop
  | nil : Layout c [] []
  | encoded {f white w text s ps} : OptFws f white → EncodedWord c w text →
      Layout c s ps → Layout c (f ++ (w ++ s)) (⟨white, true, text⟩ :: ps)
  | plain {f white x s ps} : OptFws f white → x ≠ [] → (∀ b ∈ x, vchar b = true) →
      (∀ p v, p <+: x → ¬ EncodedWord c p v) → NotBefore vchar s →
      Layout c s ps → Layout c (f ++ (x ++ s)) (⟨white, false, x⟩ :: ps)

/-- Folding (RFC 5322 2.2.3): `Folding x w` means that `w` is `x` with a CRLF inserted into some of its
runs of white space, before a white space character; at most one in each run, none in the run at the
end. -/
inductive Folding : Bytes → Bytes → Prop
  | nil : Folding [] []
  | char {b x w} : vchar b = true → Folding x w → Folding (b :: x) (b :: w)
  | space {s x w} : (∀ b ∈ s, wsp b = true) → NotBefore wsp x → Folding x w →
      Folding (s ++ x) (s ++ w)
  | fold {s s' x w} : (∀ b ∈ s, wsp b = true) → (∀ b ∈ s', wsp b = true) → s' ≠ [] → x ≠ [] →
      NotBefore wsp x → Folding x w → Folding (s ++ s' ++ x) (s ++ CRLF ++ s' ++ w)

/-- A text without its final white space. -/
def trimEnd (x : Bytes) : Bytes := (x.reverse.dropWhile wsp).reverse

end EmailParser.Spec
