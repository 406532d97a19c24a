import Verif.Model.Message
/-
A concrete configuration, used in the `example`s that accompany the theorems.
-/
namespace EmailParser

theorem utf8Valid_of_ascii : ∀ s : Bytes, (∀ b ∈ s, b < 128) → utf8Valid s = true
  | [], _ => by simp [utf8Valid]
  | b :: bs, h => by
    have hb : b < 128 := h b (by simp)
    rw [utf8Valid.eq_def]
    simp [hb, utf8Valid_of_ascii bs (fun x hx => h x (by simp [hx]))]

/-- A configuration in which the external decoders keep the ASCII characters only, and hash maps are
iterated in insertion order.  It shows that the assumptions of `Cfg` can be met. -/
def Cfg.concrete (feat : Features) (overflowChecks : Bool := true) (stack : Nat := 100) : Cfg where
  feat
  overflowChecks
  stack
  textcode := fun _ bytes => bytes.filter (· < 128)
  toLowercase := fun s => s.map asciiLower
  mapOrder := id
  textcode_valid := fun _ bytes => utf8Valid_of_ascii _ fun b hb => by
    simpa using (List.mem_filter.mp hb).2
  toLowercase_ascii := fun _ _ => rfl
  mapOrder_perm := fun l => List.Perm.refl l

end EmailParser
