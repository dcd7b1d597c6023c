import Verif.Spec.Lexical

/- Decimal numbers, independent of the parsing and printing functions. -/

namespace HyperIR.Spec

/-- The text is a decimal notation (possibly with leading zeros) of the number. -/
inductive Denotes : Str → Nat → Prop
  | digit {c} : Digit c → Denotes [c] (c.toNat - '0'.toNat)
  | more {w n c} : Denotes w n → Digit c → Denotes (w ++ [c]) (10 * n + (c.toNat - '0'.toNat))

/-- Decimal notation without leading zeros. -/
def Canonical (w : Str) (n : Nat) : Prop := Denotes w n ∧ (w.head? = some '0' → w = ['0'])

end HyperIR.Spec
