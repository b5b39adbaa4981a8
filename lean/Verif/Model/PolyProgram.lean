import Verif.Model.Moment

/-!
# Programs that build polynomials

A program is a term over the constructors and operations of the class `Polynomial`; `run` evaluates it with the functions of the model.
-/

namespace Rigeo

variable {K : Type} [Field K] [LinearOrder K] {n : ℕ}

/-- The expressions a caller can write with the class `Polynomial` for `n` variables (src/rigeo/moment.py:44-76, 90-103), with the
default tolerance. -/
inductive PolyProgram (K : Type) (n : ℕ)
  /-- `Polynomial({key: coeff, ...})` -/
  | terms (items : List ((Fin n → ℕ) × K))
  /-- `Polynomial.zeros()` -/
  | zeros
  /-- `Polynomial.ones(n, d)` -/
  | ones (d : ℕ)
  /-- `Polynomial.affine(a, b)` -/
  | affine (a : Fin n → K) (b : K)
  /-- `p + q` -/
  | add (p q : PolyProgram K n)
  /-- `p.localize(idx)` -/
  | localize (p : PolyProgram K n) (idx : Fin n → ℕ)

/-- The value of a program (src/rigeo/moment.py:47-76, 90-103), the left operand of `+` first. -/
def PolyProgram.run : PolyProgram K n → Py (Polynomial K n)
  | .terms items => .ok (Polynomial.init items)
  | .zeros => .ok Polynomial.zeros
  | .ones d => Polynomial.ones n d
  | .affine a b => .ok (Polynomial.affine a b)
  | .add p q => do
    let x ← p.run
    let y ← q.run
    pure (x.add y)
  | .localize p idx => do
    let x ← p.run
    pure (x.localize idx)

end Rigeo
