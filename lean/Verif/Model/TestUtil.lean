import Verif.Model.Py

/-! # Model of `src/rigeo/test_util.py` -/

namespace Rigeo

section Field
variable {K : Type} [Field K] [LinearOrder K] {m : ℕ}

/-- `np.isclose(a, b, rtol, atol).all()` for two rows (src/rigeo/test_util.py:29) -/
def rowClose (rtol atol : K) (a b : Fin m → K) : Bool := decide (∀ j, isclose (a j) (b j) rtol atol = true)

/-- `np.argmax` of a Boolean array: the first `True`, or index 0 if there is none. -/
def argmaxBool (test : List Bool) : ℕ := (test.findIdx? id).getD 0

/-- src/rigeo/test_util.py:25-41, the loop over the rows of `A`; `checked` is `B_checked`. -/
def allcloseLoop (B : List (Fin m → K)) (rtol atol : K) : List (Fin m → K) → List Bool → Bool
  | [], _ => true
  | a :: A, checked =>
    let test := List.zipWith (fun b c => rowClose rtol atol a b && !c) B checked
    let idx := argmaxBool test
    if test[idx]?.getD false then allcloseLoop B rtol atol A (checked.set idx true) else false

/-- src/rigeo/test_util.py:5-42 `allclose_unordered(A, B, rtol, atol)`; matrices are lists of rows. -/
def allcloseUnordered (A B : List (Fin m → K)) (rtol : K := rtol5) (atol : K := tol8) : Py Bool := do
  pyAssert (A.length == B.length)
  pure (allcloseLoop B rtol atol A (List.replicate A.length false))

end Field
end Rigeo
