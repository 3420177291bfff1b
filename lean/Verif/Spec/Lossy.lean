import Verif.Spec.Text

/-!
# Reading bytes that need not be UTF-8 as text

Unicode's recommended practice ("substitution of maximal subparts", Unicode Standard, section 3.9).
-/

set_option autoImplicit false

namespace Verif.Spec

/-- The bytes begin the encoding of some character. -/
def Begins (p : List UInt8) : Prop := ∃ c : Char, p <+: String.utf8EncodeChar c

/-- `bs` is read as the text `cs`: an encoded character at the front is that character; otherwise
the longest beginning of an encoded character that is there, or a single byte if there is none, is
read as U+FFFD. -/
inductive Reads : List UInt8 → List Char → Prop
  | done : Reads [] []
  | char (c : Char) (bs : List UInt8) (cs : List Char) :
      Reads bs cs → Reads (String.utf8EncodeChar c ++ bs) (c :: cs)
  | bad (b : UInt8) (p bs : List UInt8) (cs : List Char) :
      (∀ c : Char, ¬ String.utf8EncodeChar c <+: b :: (p ++ bs)) →
      (p ≠ [] → Begins (b :: p)) →
      (∀ (x : UInt8) (q : List UInt8), bs = x :: q → ¬ Begins (b :: (p ++ [x]))) →
      Reads bs cs → Reads (b :: (p ++ bs)) ('�' :: cs)

end Verif.Spec
