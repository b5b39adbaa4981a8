import Verif.Model.MomentIndex

/-!
# The text of polynomials

The decimal text of a coefficient is a parameter: it depends on the type of the coefficient.
-/

namespace Rigeo

namespace Polynomial

variable {K : Type} {n : ℕ}

/-- `f"{c} * x^{idx}"` in src/rigeo/moment.py:84 -/
def termText (text : K → List Char) (kc : (Fin n → ℕ) × K) : List Char :=
  text kc.2 ++ (" * x^".toList ++ DynIndex.toChars (List.ofFn kc.1))

/-- `" + ".join(strs)` in src/rigeo/moment.py:85 -/
def joinTerms : List (List Char) → List Char
  | [] => []
  | [s] => s
  | s :: t :: l => s ++ (" + ".toList ++ joinTerms (t :: l))

/-- src/rigeo/moment.py:83-88 `__str__` and `__repr__`: the terms in the order of the dictionary. -/
def toChars (text : K → List Char) (p : Polynomial K n) : List Char := joinTerms (p.coefficients.map (termText text))

end Polynomial

end Rigeo
