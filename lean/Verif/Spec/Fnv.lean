/-! # The 32-bit FNV-1 hash on natural numbers -/

set_option autoImplicit false

namespace Verif.Spec

/-- FNV-1, 32 bits: offset basis 2166136261, prime 16777619; for each byte multiply modulo
2^32, then xor. -/
def fnv1_32 (bytes : List Nat) : Nat :=
  bytes.foldl (fun h b => ((h * 16777619) % 2 ^ 32) ^^^ b) 2166136261

end Verif.Spec
