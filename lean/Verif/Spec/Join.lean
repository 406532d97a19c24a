import Verif.Spec.Exact
/-
Putting lists together and taking them apart.  Nothing here refers to the parsers.
-/
namespace EmailParser.Spec

/-- The list of the first field followed by the list of the second, for fields of the same kind that are lists with
commas.  An empty list, which only `Bcc` may have, has no place in a longer one. -/
def together : Field → Field → Option Field
  | .from v, .from v' => some (.from (v ++ v'))
  | .replyTo v, .replyTo v' => some (.replyTo (v ++ v'))
  | .to v, .to v' => some (.to (v ++ v'))
  | .cc v, .cc v' => some (.cc (v ++ v'))
  | .bcc (a :: v), .bcc (a' :: v') => some (.bcc (a :: v ++ a' :: v'))
  | .keywords v, .keywords v' => some (.keywords (v ++ v'))
  | _, _ => none

/-- The members of the list, each as a list of its own. -/
def singles : Field → List Field
  | .from v => v.map fun a => .from [a]
  | .replyTo v => v.map fun a => .replyTo [a]
  | .to v => v.map fun a => .to [a]
  | .cc v => v.map fun a => .cc [a]
  | .bcc v => v.map fun a => .bcc [a]
  | .keywords v => v.map fun a => .keywords [a]
  | _ => []

/-- The same for lists of identifiers, which have no commas. -/
def identifiersTogether : Field → Field → Option Field
  | .inReplyTo v, .inReplyTo v' => some (.inReplyTo (v ++ v'))
  | .references v, .references v' => some (.references (v ++ v'))
  | _, _ => none

/-- The identifiers of the list, each as a list of its own. -/
def identifierSingles : Field → List Field
  | .inReplyTo v => v.map fun a => .inReplyTo [a]
  | .references v => v.map fun a => .references [a]
  | _ => []

/-- Texts with commas between them. -/
def withCommas : List Bytes → Bytes
  | [] => []
  | [w] => w
  | w :: ws => w ++ 44 :: withCommas ws

end EmailParser.Spec
