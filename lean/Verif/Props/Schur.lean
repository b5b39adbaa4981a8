import Verif.Spec.Schur
import Verif.Lemmas.PSD
import Mathlib.Algebra.Order.Star.Real

/-!
# C113: `schur` on arguments of any kind
-/

namespace Rigeo

open Matrix Spec

section Blocks
variable {K : Type}

theorem toColumn_entries {a : NdArray K} {r c : ℕ} {M : Matrix (Fin r) (Fin c) K} (h : HasEntries a M) :
    (SchurArg.toColumn a).shape = [r, c] ∧ ∀ (i : Fin r) (j : Fin c), (SchurArg.toColumn a).data [(i : ℕ), (j : ℕ)] = M i j := by
  unfold SchurArg.toColumn
  rcases h with ⟨hs, hd⟩ | ⟨hs, rfl, hd⟩
  · rw [hs]; exact ⟨hs, hd⟩
  · rw [hs]; exact ⟨rfl, fun i j => hd i j⟩

/-- C113: every argument is turned into an array with two axes that has the entries of the matrix it stands for. -/
theorem C113_block {X : SchurArg K} {r c : ℕ} {M : Matrix (Fin r) (Fin c) K} (h : StandsFor X M) :
    X.toBlock.shape = [r, c] ∧ ∀ (i : Fin r) (j : Fin c), X.toBlock.data [(i : ℕ), (j : ℕ)] = M i j := by
  rcases X with x | a | a
  · obtain ⟨rfl, rfl, hd⟩ := h
    exact ⟨rfl, fun i j => (hd i j).symm⟩
  · exact toColumn_entries h
  · unfold SchurArg.toBlock
    by_cases h1 : a.shape.prod = 1
    · simp only [h1, if_true]
      rcases h with (⟨hs, hd⟩ | ⟨hs, rfl, hd⟩) | ⟨hs, rfl, rfl, hd⟩
      · rw [hs] at h1
        simp only [List.prod_cons, List.prod_nil, mul_one, mul_eq_one] at h1
        obtain ⟨rfl, rfl⟩ := h1
        refine ⟨rfl, fun i j => ?_⟩
        rw [← hd i j, NdArray.ndim, hs, Fin.val_eq_zero, Fin.val_eq_zero]; rfl
      · rw [hs] at h1
        simp only [List.prod_cons, List.prod_nil, mul_one] at h1
        subst h1
        refine ⟨rfl, fun i j => ?_⟩
        rw [← hd i j, NdArray.ndim, hs, Fin.val_eq_zero]; rfl
      · refine ⟨rfl, fun i j => ?_⟩
        rw [hd i j, NdArray.ndim, hs]; rfl
    · simp only [h1, if_false]
      rcases h with h | ⟨hs, -, -, -⟩
      · exact toColumn_entries h
      · rw [hs] at h1; simp at h1

/-- C113: `schur(A, B, C)` returns exactly if the blocks fit: `A` and `B` have equally many rows, `C` as many rows as `B` has columns,
and both rows of blocks equally many columns; otherwise it raises `ValueError`. The entries are those of the four blocks. Nothing
requires `A` or `C` to be square. -/
theorem C113_schur {A B C : SchurArg K} {rA cA rB cB rC cC : ℕ} {MA : Matrix (Fin rA) (Fin cA) K} {MB : Matrix (Fin rB) (Fin cB) K}
    {MC : Matrix (Fin rC) (Fin cC) K} (hA : StandsFor A MA) (hB : StandsFor B MB) (hC : StandsFor C MC) :
    (rA = rB ∧ cB = rC ∧ cA + cB = rB + cC → ∃ Z, schurArray A B C = .ok Z ∧ Z.shape = [rA + cB, cA + cB] ∧
      (∀ (i : Fin rA) (j : Fin cA), Z.data [(i : ℕ), (j : ℕ)] = MA i j) ∧
      (∀ (i : Fin rB) (j : Fin cB), Z.data [(i : ℕ), cA + (j : ℕ)] = MB i j) ∧
      (∀ (i : Fin rB) (j : Fin cB), Z.data [rA + (j : ℕ), (i : ℕ)] = MB i j) ∧
      (∀ (i : Fin rC) (j : Fin cC), Z.data [rA + (i : ℕ), rB + (j : ℕ)] = MC i j)) ∧
    (¬ (rA = rB ∧ cB = rC ∧ cA + cB = rB + cC) → schurArray A B C = .error .value) := by
  obtain ⟨sA, dA⟩ := C113_block hA
  obtain ⟨sB, dB⟩ := C113_block hB
  obtain ⟨sC, dC⟩ := C113_block hC
  have sT : (transposeArray B.toBlock).shape = [cB, rB] := by simp [transposeArray, sB]
  unfold schurArray
  simp only [cvxHstack, cvxVstack, sA, sB, sC, sT]
  by_cases h1 : rA = rB
  · by_cases h2 : cB = rC
    · subst h1 h2
      by_cases h3 : cA + cB = rA + cC
      · refine ⟨fun _ => ?_, fun h => absurd ⟨rfl, rfl, h3⟩ h⟩
        simp only [if_true, bind, Except.bind, h3]
        refine ⟨_, rfl, rfl, fun i j => ?_, fun i j => ?_, fun i j => ?_, fun i j => ?_⟩
        · simp [dA]
        · simp [dB]
        · simp [transposeArray, dB]
        · simp [dC]
      · refine ⟨fun h => absurd h.2.2 h3, fun _ => ?_⟩
        simp [h3, bind, Except.bind]
    · exact ⟨fun h => absurd h.2.1 h2, fun _ => by simp [h1, h2, bind, Except.bind]⟩
  · exact ⟨fun h => absurd h.1 h1, fun _ => by simp [h1, bind, Except.bind]⟩

end Blocks

section Field
variable {K : Type} [Field K]

theorem standsFor_matrix {r c : ℕ} (M : Matrix (Fin r) (Fin c) K) : StandsFor (.array (NdArray.ofMatrix M)) M :=
  Or.inl ⟨rfl, fun i j => by simp [NdArray.ofMatrix]⟩

theorem standsFor_vector {r : ℕ} (v : Fin r → K) : StandsFor (.array (NdArray.ofVec v)) (Matrix.of fun i (_ : Fin 1) => v i) :=
  Or.inr ⟨rfl, rfl, fun i j => by simp [NdArray.ofVec]⟩

theorem standsFor_number (x : K) : StandsFor (.number x) (Matrix.of fun (_ _ : Fin 1) => x) := ⟨rfl, rfl, fun _ _ => rfl⟩

/-- C113: for a square matrix, a vector and a number, `schur` is that of `Model/Constraint.lean`. -/
theorem C113_schur_vector [LinearOrder K] {n : ℕ} (A : Matrix (Fin n) (Fin n) K) (b : Fin n → K) (x : K) :
    ∃ Z, schurArray (.array (NdArray.ofMatrix A)) (.array (NdArray.ofVec b)) (.number x) = .ok Z ∧ Z.shape = [n + 1, n + 1] ∧
      ∀ i j : Fin (n + 1), Z.data [(i : ℕ), (j : ℕ)] = schur A b x i j := by
  obtain ⟨Z, h1, h2, h3, h4, h5, h6⟩ := (C113_schur (standsFor_matrix A) (standsFor_vector b) (standsFor_number x)).1 ⟨rfl, rfl, rfl⟩
  refine ⟨Z, h1, h2, fun i j => ?_⟩
  unfold schur
  refine Fin.lastCases ?_ (fun i => ?_) i <;> refine Fin.lastCases ?_ (fun j => ?_) j
  · simpa using h6 0 0
  · simpa using h5 j 0
  · simpa using h4 i 0
  · simpa using h3 i j

end Field

/-- C113: for square blocks with `A` symmetric and `C` positive definite, the matrix that `schur` returns is positive semidefinite
exactly if the Schur complement `A - B C⁻¹ Bᵀ` is. -/
theorem C113_schur_psd {A B C : SchurArg ℝ} {n m : ℕ} {MA : Matrix (Fin n) (Fin n) ℝ} {MB : Matrix (Fin n) (Fin m) ℝ}
    {MC : Matrix (Fin m) (Fin m) ℝ} (hA : StandsFor A MA) (hB : StandsFor B MB) (hC : StandsFor C MC) (hpos : MC.PosDef) :
    ∃ Z, schurArray A B C = .ok Z ∧ Z.shape = [n + m, n + m] ∧
      ((Matrix.of fun i j : Fin (n + m) => Z.data [(i : ℕ), (j : ℕ)]).PosSemidef ↔ (MA - MB * MC⁻¹ * MBᵀ).PosSemidef) := by
  obtain ⟨Z, h1, h2, h3, h4, h5, h6⟩ := (C113_schur hA hB hC).1 ⟨rfl, rfl, rfl⟩
  refine ⟨Z, h1, h2, ?_⟩
  have he : (Matrix.of fun i j : Fin (n + m) => Z.data [(i : ℕ), (j : ℕ)]).submatrix finSumFinEquiv finSumFinEquiv =
      fromBlocks MA MB MBᵀ MC := by
    ext i j
    rcases i with i | i <;> rcases j with j | j
    · simp [h3]
    · simp [h4]
    · simp [h5]
    · simp [h6]
  rw [← Matrix.posSemidef_submatrix_equiv finSumFinEquiv, he]
  haveI := hpos.isUnit.invertible
  have := Matrix.PosDef.fromBlocks₂₂ MA MB hpos
  simpa only [conjTranspose_eq_transpose_of_trivial] using this

/-- A two by two matrix bordered by a vector and a number. -/
example : ∃ Z, schurArray (K := ℚ) (.array (NdArray.ofMatrix !![1, 2; 2, 5])) (.array (NdArray.ofVec ![7, 8])) (.number 9) = .ok Z ∧
    Z.shape = [3, 3] ∧ Z.data [0, 2] = 7 ∧ Z.data [2, 1] = 8 := by
  obtain ⟨Z, h1, h2, h3⟩ := C113_schur_vector (K := ℚ) !![1, 2; 2, 5] ![7, 8] 9
  exact ⟨Z, h1, h2, h3 0 2, h3 2 1⟩

/-- Blocks that are not square are accepted if they fit: the result is a matrix with three rows and four columns. -/
example : ∃ Z, schurArray (K := ℚ) (.array (NdArray.ofMatrix (0 : Matrix (Fin 2) (Fin 3) ℚ))) (.array (NdArray.ofVec ![7, 8]))
    (.array (NdArray.ofMatrix (0 : Matrix (Fin 1) (Fin 2) ℚ))) = .ok Z ∧ Z.shape = [3, 4] := by
  obtain ⟨Z, h1, h2, -⟩ := (C113_schur (standsFor_matrix (0 : Matrix (Fin 2) (Fin 3) ℚ)) (standsFor_vector ![7, 8])
    (standsFor_matrix (0 : Matrix (Fin 1) (Fin 2) ℚ))).1 ⟨rfl, rfl, rfl⟩
  exact ⟨Z, h1, h2⟩

/-- A vector of another length than the matrix. -/
example : schurArray (K := ℚ) (.array (NdArray.ofMatrix (1 : Matrix (Fin 2) (Fin 2) ℚ))) (.array (NdArray.ofVec ![7, 8, 9]))
    (.number 1) = .error .value :=
  (C113_schur (standsFor_matrix _) (standsFor_vector _) (standsFor_number 1)).2 (by simp)

/-- Two by two blocks, the last of them the identity. -/
example := C113_schur_psd (standsFor_matrix !![(2 : ℝ), 0; 0, 3]) (standsFor_matrix !![(1 : ℝ), 1; 0, 1])
  (standsFor_matrix (1 : Matrix (Fin 2) (Fin 2) ℝ)) Matrix.PosDef.one

end Rigeo
