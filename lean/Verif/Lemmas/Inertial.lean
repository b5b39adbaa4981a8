import Verif.Lemmas.Util
import Verif.Model.Constraint
import Verif.Spec.Basic

/-! # Auxiliary facts about the model of `inertial.py` -/

namespace Rigeo

open Matrix

section Field
variable {K : Type} [Field K]

@[simp] theorem outer_apply {m n : ℕ} (u : Fin m → K) (v : Fin n → K) (i j) :
    outer u v i j = u i * v j := rfl

theorem outer_eq_vecMulVec {m n : ℕ} (u : Fin m → K) (v : Fin n → K) :
    outer u v = vecMulVec u v := rfl

@[simp] theorem bordered_cc {d : ℕ} (A : Matrix (Fin d) (Fin d) K) (b c : Fin d → K) (e : K) (i j : Fin d) :
    bordered A b c e i.castSucc j.castSucc = A i j := by simp [bordered]
@[simp] theorem bordered_cl {d : ℕ} (A : Matrix (Fin d) (Fin d) K) (b c : Fin d → K) (e : K) (i : Fin d) :
    bordered A b c e i.castSucc (Fin.last d) = b i := by simp [bordered]
@[simp] theorem bordered_lc {d : ℕ} (A : Matrix (Fin d) (Fin d) K) (b c : Fin d → K) (e : K) (j : Fin d) :
    bordered A b c e (Fin.last d) j.castSucc = c j := by simp [bordered]
@[simp] theorem bordered_ll {d : ℕ} (A : Matrix (Fin d) (Fin d) K) (b c : Fin d → K) (e : K) :
    bordered A b c e (Fin.last d) (Fin.last d) = e := by simp [bordered]

/-- Matrices of size `d+1` agree if their four blocks do. -/
theorem ext_last {d : ℕ} {A B : Matrix (Fin (d + 1)) (Fin (d + 1)) K}
    (cc : ∀ i j : Fin d, A i.castSucc j.castSucc = B i.castSucc j.castSucc)
    (cl : ∀ i : Fin d, A i.castSucc (Fin.last d) = B i.castSucc (Fin.last d))
    (lc : ∀ j : Fin d, A (Fin.last d) j.castSucc = B (Fin.last d) j.castSucc)
    (ll : A (Fin.last d) (Fin.last d) = B (Fin.last d) (Fin.last d)) : A = B := by
  ext i j
  refine Fin.lastCases ?_ (fun i => ?_) i <;> refine Fin.lastCases ?_ (fun j => ?_) j
  · exact ll
  · exact lc j
  · exact cl i
  · exact cc i j

theorem bordered_inj {d : ℕ} {A A' : Matrix (Fin d) (Fin d) K} {b b' c c' : Fin d → K} {e e' : K} :
    bordered A b c e = bordered A' b' c' e' ↔ A = A' ∧ b = b' ∧ c = c' ∧ e = e' := by
  constructor
  · intro h
    refine ⟨?_, ?_, ?_, ?_⟩
    · ext i j; simpa using congrFun (congrFun h i.castSucc) j.castSucc
    · ext i; simpa using congrFun (congrFun h i.castSucc) (Fin.last d)
    · ext j; simpa using congrFun (congrFun h (Fin.last d)) j.castSucc
    · simpa using congrFun (congrFun h (Fin.last d)) (Fin.last d)
  · rintro ⟨rfl, rfl, rfl, rfl⟩; rfl

theorem bordered_self {d : ℕ} (X : Matrix (Fin (d + 1)) (Fin (d + 1)) K) :
    bordered (Matrix.of fun i j => X i.castSucc j.castSucc) (fun i => X i.castSucc (Fin.last d))
      (fun j => X (Fin.last d) j.castSucc) (X (Fin.last d) (Fin.last d)) = X := by
  apply ext_last <;> simp

theorem bordered_transpose {d : ℕ} (A : Matrix (Fin d) (Fin d) K) (b c : Fin d → K) (e : K) :
    (bordered A b c e)ᵀ = bordered Aᵀ c b e := by
  apply ext_last <;> simp

theorem bordered_add {d : ℕ} (A A' : Matrix (Fin d) (Fin d) K) (b b' c c' : Fin d → K) (e e' : K) :
    bordered A b c e + bordered A' b' c' e' = bordered (A + A') (b + b') (c + c') (e + e') := by
  apply ext_last <;> simp

theorem bordered_smul {d : ℕ} (s : K) (A : Matrix (Fin d) (Fin d) K) (b c : Fin d → K) (e : K) :
    s • bordered A b c e = bordered (s • A) (s • b) (s • c) (s * e) := by
  apply ext_last <;> simp

theorem bordered_zero {d : ℕ} : bordered (0 : Matrix (Fin d) (Fin d) K) 0 0 0 = 0 := by
  apply ext_last <;> simp

theorem bordered_one {d : ℕ} : bordered (1 : Matrix (Fin d) (Fin d) K) 0 0 1 = 1 := by
  apply ext_last
  · intro i j; simp [Matrix.one_apply]
  · intro i; simp [Matrix.one_apply, (Fin.castSucc_lt_last i).ne]
  · intro i; simp [Matrix.one_apply, (Fin.castSucc_lt_last i).ne']
  · simp

theorem bordered_mul {d : ℕ} (A A' : Matrix (Fin d) (Fin d) K) (b b' c c' : Fin d → K) (e e' : K) :
    bordered A b c e * bordered A' b' c' e' =
      bordered (A * A' + vecMulVec b c') (A *ᵥ b' + e' • b) (c ᵥ* A' + e • c') (c ⬝ᵥ b' + e * e') := by
  apply ext_last <;>
    simp [Matrix.mul_apply, Fin.sum_univ_castSucc, mulVec, vecMul, dotProduct, vecMulVec_apply, mul_comm]

theorem bordered_mulVec_snoc {d : ℕ} (A : Matrix (Fin d) (Fin d) K) (b c : Fin d → K) (e : K)
    (x : Fin d → K) (t : K) :
    bordered A b c e *ᵥ (Fin.snoc (α := fun _ => K) x t) =
      Fin.snoc (α := fun _ => K) (A *ᵥ x + t • b) (c ⬝ᵥ x + e * t) := by
  ext i
  refine Fin.lastCases ?_ (fun i => ?_) i <;>
    simp [mulVec, dotProduct, Fin.sum_univ_castSucc, mul_comm]

theorem snoc_dotProduct {d : ℕ} (x y : Fin d → K) (s t : K) :
    (Fin.snoc (α := fun _ => K) x s) ⬝ᵥ (Fin.snoc (α := fun _ => K) y t) = x ⬝ᵥ y + s * t := by
  simp [dotProduct, Fin.sum_univ_castSucc]

/-- The quadratic form of a symmetric bordered matrix. -/
theorem bordered_quad {d : ℕ} (A : Matrix (Fin d) (Fin d) K) (b : Fin d → K) (e : K)
    (x : Fin d → K) (t : K) :
    (Fin.snoc (α := fun _ => K) x t) ⬝ᵥ (bordered A b b e *ᵥ (Fin.snoc (α := fun _ => K) x t)) =
      x ⬝ᵥ (A *ᵥ x) + 2 * t * (b ⬝ᵥ x) + e * t ^ 2 := by
  rw [bordered_mulVec_snoc, snoc_dotProduct, dotProduct_add, dotProduct_smul, dotProduct_comm x b]
  simp only [smul_eq_mul]
  ring

theorem bordered_trace {d : ℕ} (A : Matrix (Fin d) (Fin d) K) (b c : Fin d → K) (e : K) :
    (bordered A b c e).trace = A.trace + e := by
  simp [Matrix.trace, Fin.sum_univ_castSucc]

theorem forall_snoc {d : ℕ} {P : (Fin (d + 1) → K) → Prop} :
    (∀ v, P v) ↔ ∀ (x : Fin d → K) (t : K), P (Fin.snoc (α := fun _ => K) x t) := by
  constructor
  · intro h x t; exact h _
  · intro h v
    have := h (Fin.init v) (v (Fin.last d))
    rwa [Fin.snoc_init_self] at this

theorem outer_snoc {d : ℕ} (x : Fin d → K) (s : K) :
    outer (Fin.snoc (α := fun _ => K) x s) (Fin.snoc (α := fun _ => K) x s) =
      bordered (outer x x) (s • x) (s • x) (s * s) := by
  apply ext_last <;> intros <;> simp [mul_comm]

section Order
variable [LinearOrder K]

/-- The constructor call used by `transform`, `zero`, `random`. -/
theorem IP.init_com_H (m : K) (hm : 0 ≤ m) (c : Fin 3 → K) (H : Matrix (Fin 3) (Fin 3) K) :
    IP.init m (com := some c) (H := some H) = .ok ⟨m, c, H⟩ := by
  simp [IP.init, pyAssert, hm, bind, Except.bind, pure, Except.pure]

/-- The constructor call used by `from_pim`, `__add__` and the density functions. -/
theorem IP.init_h_H (m : K) (hm : 0 < m) (h : Fin 3 → K) (H : Matrix (Fin 3) (Fin 3) K) :
    IP.init m (h := some h) (H := some H) = .ok ⟨m, fun i => h i / m, H⟩ := by
  simp [IP.init, pyAssert, hm.le, bind, Except.bind, pure, Except.pure, vdiv, hm.ne']

theorem IP.init_h_H_zero (h : Fin 3 → K) (H : Matrix (Fin 3) (Fin 3) K) :
    IP.init 0 (h := some h) (H := some H) = .error .nonfinite := by
  simp [IP.init, pyAssert, bind, Except.bind, vdiv]

theorem IP.init_neg (m : K) (hm : m < 0) (h c : Option (Fin 3 → K))
    (H I : Option (Matrix (Fin 3) (Fin 3) K)) (b : Bool) :
    IP.init m h c H I b = .error .assertion := by
  simp [IP.init, pyAssert, not_le.mpr hm, bind, Except.bind]

theorem IP.fromPim_bordered (A : Matrix (Fin 3) (Fin 3) K) (b c : Fin 3 → K) (e : K) (he : 0 < e) :
    IP.fromPim (bordered A b c e) = .ok ⟨e, fun i => c i / e, A⟩ := by
  unfold IP.fromPim
  rw [bordered_ll, IP.init_h_H _ he]
  congr 1
  ext1
  · rfl
  · ext i; dsimp only; rw [bordered_lc]
  · ext i j; dsimp only; rw [Matrix.of_apply, bordered_cc]

theorem IP.fromPim_bordered_zero (A : Matrix (Fin 3) (Fin 3) K) (b c : Fin 3 → K) :
    IP.fromPim (bordered A b c 0) = .error .nonfinite := by
  unfold IP.fromPim
  rw [bordered_ll, IP.init_h_H_zero]

end Order
end Field
end Rigeo
