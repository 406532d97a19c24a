import Verif.Model.Entity
/-
Multipart entities inside multipart entities.  The library reads one level at a time; its users call `RawEntity::parse` on
the parts.  This file says what reading all levels means; `RawEntity.parse` is the only function of the model it uses.
-/
namespace EmailParser.Spec

/-- `part` is one of the parts that reading `whole` gives. -/
def PartOf (c : Cfg) (part whole : RawEntity) : Prop :=
  ∃ subtype parts, whole.parse c = .ok (.multipart subtype parts) ∧ part ∈ parts

/-- `leaf` is inside `whole`, `n` levels deep. -/
inductive Inside (c : Cfg) (leaf : RawEntity) : Nat → RawEntity → Prop
  | zero : Inside c leaf 0 leaf
  | succ {n part whole} : PartOf c part whole → Inside c leaf n part → Inside c leaf (n + 1) whole

mutual
/-- Reading the entity and, again and again, its parts gives `n` entities (itself included), on `d` levels. -/
inductive Census (c : Cfg) : RawEntity → Nat → Nat → Prop
  | leaf {raw} : (∀ subtype parts, raw.parse c ≠ .ok (.multipart subtype parts)) → Census c raw 1 1
  | node {raw subtype parts n d} : raw.parse c = .ok (.multipart subtype parts) → CensusOf c parts n d →
      Census c raw (n + 1) (d + 1)
/-- The same for a list of entities: the sum of the numbers, and the maximum of the levels. -/
inductive CensusOf (c : Cfg) : List RawEntity → Nat → Nat → Prop
  | nil : CensusOf c [] 0 0
  | cons {raw raws n d n' d'} : Census c raw n d → CensusOf c raws n' d' →
      CensusOf c (raw :: raws) (n + n') (max d d')
end

/-- The number of ASCII bytes. -/
def asciiCount (s : Bytes) : Nat := s.countP (· < 128)

end EmailParser.Spec
