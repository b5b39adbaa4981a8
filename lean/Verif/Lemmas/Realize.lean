import Verif.Props.Shapes2

/-!
# The truncated moment problem on an ellipsoid

A positive semidefinite matrix whose trace against a quadratic form is non-negative is a sum of
rank-one matrices on each of which the form is non-negative (Sturm and Zhang). For ellipsoids this
turns the trace test of the library into the existence of a mass distribution.
-/

namespace Rigeo

open Matrix

section SZ
variable {n : ℕ}

theorem trace_mul_outer (Q : Matrix (Fin n) (Fin n) ℝ) (u : Fin n → ℝ) :
    (Q * outer u u).trace = u ⬝ᵥ (Q *ᵥ u) := by
  rw [outer_eq_vecMulVec, Matrix.mul_vecMulVec, Matrix.trace_vecMulVec, dotProduct_comm]

theorem trace_mul_list_outer (Q : Matrix (Fin n) (Fin n) ℝ) (us : List (Fin n → ℝ)) :
    (Q * (us.map fun u => outer u u).sum).trace = (us.map fun u => u ⬝ᵥ (Q *ᵥ u)).sum := by
  induction us with
  | nil => simp
  | cons u us ih => simp only [List.map_cons, List.sum_cons, Matrix.mul_add, Matrix.trace_add, ih, trace_mul_outer]

/-- The rotation step: a negative and a positive vector are replaced by a null vector and another one. -/
theorem rotate_pair (Q : Matrix (Fin n) (Fin n) ℝ) (a b : Fin n → ℝ)
    (ha : a ⬝ᵥ (Q *ᵥ a) < 0) (hb : 0 < b ⬝ᵥ (Q *ᵥ b)) :
    ∃ s t : ℝ, s ^ 2 + t ^ 2 = 1 ∧
      (s • a + t • b) ⬝ᵥ (Q *ᵥ (s • a + t • b)) = 0 ∧
      outer (s • a + t • b) (s • a + t • b) + outer (s • b - t • a) (s • b - t • a) =
        outer a a + outer b b := by
  set qa := a ⬝ᵥ (Q *ᵥ a)
  set qb := b ⬝ᵥ (Q *ᵥ b)
  set β := a ⬝ᵥ (Q *ᵥ b) + b ⬝ᵥ (Q *ᵥ a)
  set D := Real.sqrt (β ^ 2 - 4 * qa * qb)
  have hD : D ^ 2 = β ^ 2 - 4 * qa * qb := Real.sq_sqrt (by nlinarith [sq_nonneg β])
  set x := (-β + D) / (2 * qb)
  have hx : qa + x * β + x ^ 2 * qb = 0 := by
    have h2 : x * (2 * qb) = -β + D := div_mul_cancel₀ _ (by positivity)
    have : 4 * qb * (qa + x * β + x ^ 2 * qb) = 0 := by
      linear_combination (2 * qb * x + β + D) * h2 + hD
    exact (mul_eq_zero.mp this).resolve_left (by positivity)
  have hn : 0 < Real.sqrt (1 + x ^ 2) := Real.sqrt_pos.mpr (by positivity)
  have hn2 : Real.sqrt (1 + x ^ 2) ^ 2 = 1 + x ^ 2 := Real.sq_sqrt (by positivity)
  set s := 1 / Real.sqrt (1 + x ^ 2)
  have hs : s ^ 2 * (1 + x ^ 2) = 1 := by
    rw [← hn2]; simp only [s]; field_simp
  have h1 : s ^ 2 + (s * x) ^ 2 = 1 := by linear_combination hs
  refine ⟨s, s * x, h1, ?_, ?_⟩
  · have e : (s • a + (s * x) • b) ⬝ᵥ (Q *ᵥ (s • a + (s * x) • b)) = s ^ 2 * (qa + x * β + x ^ 2 * qb) := by
      simp only [mulVec_add, mulVec_smul, dotProduct_add, add_dotProduct, smul_dotProduct,
        dotProduct_smul, smul_eq_mul, qa, qb, β]
      ring
    rw [e, hx, mul_zero]
  · ext i j
    simp only [Matrix.add_apply, outer_apply, Pi.add_apply, Pi.sub_apply, Pi.smul_apply, smul_eq_mul]
    linear_combination (a i * a j + b i * b j) * h1

/-- Sturm–Zhang, with the vectors kept inside a subspace. -/
theorem sturm_zhang (Q : Matrix (Fin n) (Fin n) ℝ) (W : Submodule ℝ (Fin n → ℝ)) :
    ∀ (k : ℕ) (us : List (Fin n → ℝ)), us.length = k → (∀ u ∈ us, u ∈ W) →
      0 ≤ (us.map fun u => u ⬝ᵥ (Q *ᵥ u)).sum →
      ∃ vs : List (Fin n → ℝ), (∀ v ∈ vs, v ∈ W ∧ 0 ≤ v ⬝ᵥ (Q *ᵥ v)) ∧
        (vs.map fun v => outer v v).sum = (us.map fun u => outer u u).sum := by
  intro k
  induction k with
  | zero =>
    intro us hk _ _
    rw [List.length_eq_zero_iff] at hk
    subst hk
    exact ⟨[], by simp, rfl⟩
  | succ k ih =>
    intro us hk hW hq
    by_cases hall : ∀ u ∈ us, 0 ≤ u ⬝ᵥ (Q *ᵥ u)
    · exact ⟨us, fun v hv => ⟨hW v hv, hall v hv⟩, rfl⟩
    · push Not at hall
      obtain ⟨a, ha, hqa⟩ := hall
      obtain ⟨us1, hus1⟩ : ∃ us1, us.Perm (a :: us1) := ⟨_, List.perm_cons_erase ha⟩
      have hs1 : (us.map fun u => u ⬝ᵥ (Q *ᵥ u)).sum =
          a ⬝ᵥ (Q *ᵥ a) + (us1.map fun u => u ⬝ᵥ (Q *ᵥ u)).sum := by
        rw [(hus1.map _).sum_eq]; simp
      obtain ⟨b, hb, hqb⟩ : ∃ b ∈ us1, 0 < b ⬝ᵥ (Q *ᵥ b) := by
        by_contra hno
        push Not at hno
        have : (us1.map fun u => u ⬝ᵥ (Q *ᵥ u)).sum ≤ (us1.map fun _ => (0 : ℝ)).sum :=
          List.sum_le_sum fun u hu => hno u hu
        simp only [List.map_const', List.sum_replicate, smul_zero] at this
        linarith
      obtain ⟨us2, hus2⟩ : ∃ us2, us1.Perm (b :: us2) := ⟨_, List.perm_cons_erase hb⟩
      have hp : us.Perm (a :: b :: us2) := hus1.trans (hus2.cons a)
      obtain ⟨s, t, hst, hv, ho⟩ := rotate_pair Q a b hqa hqb
      set v := s • a + t • b
      set w := s • b - t • a
      have haW : a ∈ W := hW a ha
      have hbW : b ∈ W := hW b (hus1.mem_iff.mpr (List.mem_cons_of_mem _ hb))
      have hvW : v ∈ W := W.add_mem (W.smul_mem _ haW) (W.smul_mem _ hbW)
      have hwW : w ∈ W := W.sub_mem (W.smul_mem _ hbW) (W.smul_mem _ haW)
      have hqw : v ⬝ᵥ (Q *ᵥ v) + w ⬝ᵥ (Q *ᵥ w) = a ⬝ᵥ (Q *ᵥ a) + b ⬝ᵥ (Q *ᵥ b) := by
        have := congrArg (fun X => (Q * X).trace) ho
        simpa only [Matrix.mul_add, Matrix.trace_add, trace_mul_outer] using this
      obtain ⟨vs, hvs, hsum⟩ := ih (w :: us2)
        (by have := hp.length_eq; simp only [List.length_cons] at this ⊢; omega)
        (by
          intro u hu
          rcases List.mem_cons.mp hu with rfl | hu
          · exact hwW
          · exact hW u (hp.mem_iff.mpr (by simp [hu])))
        (by
          rw [(hp.map _).sum_eq] at hq
          simp only [List.map_cons, List.sum_cons] at hq ⊢
          linarith)
      refine ⟨v :: vs, ?_, ?_⟩
      · intro x hx
        rcases List.mem_cons.mp hx with rfl | hx
        · exact ⟨hvW, hv.ge⟩
        · exact hvs x hx
      · rw [(hp.map _).sum_eq]
        simp only [List.map_cons, List.sum_cons, hsum, ← add_assoc, ho]

end SZ

section Ellipsoid
variable {n : ℕ}

/-- Moments of a point-mass system as one matrix. -/
theorem pm_bordered {K : Type} [Field K] (s : Spec.PointMasses K n) :
    bordered s.second s.first s.first s.mass =
      (s.map fun mp => mp.1 • outer (Fin.snoc (α := fun _ => K) mp.2 1) (Fin.snoc (α := fun _ => K) mp.2 1)).sum := by
  induction s with
  | nil =>
    simp only [List.map_nil, List.sum_nil]
    exact bordered_zero
  | cons mp s ih =>
    have e1 : Spec.PointMasses.mass (mp :: s) = mp.1 + Spec.PointMasses.mass s := by simp [Spec.PointMasses.mass]
    have e2 : Spec.PointMasses.first (mp :: s) = mp.1 • mp.2 + Spec.PointMasses.first s := by simp [Spec.PointMasses.first]
    have e3 : Spec.PointMasses.second (mp :: s) = mp.1 • vecMulVec mp.2 mp.2 + Spec.PointMasses.second s := by
      simp [Spec.PointMasses.second]
    rw [List.map_cons, List.sum_cons, ← ih, outer_snoc, bordered_smul, bordered_add, e1, e2, e3,
      outer_eq_vecMulVec]
    simp

/-- The direction `(r, -r·c)` on which `(y, t)` vanishes iff `y - t c` is orthogonal to `r`. -/
def shifted (r c : Fin n → ℝ) : Fin (n + 1) → ℝ := Fin.snoc (α := fun _ => ℝ) r (-(r ⬝ᵥ c))

theorem shifted_dot (r c y : Fin n → ℝ) (t : ℝ) :
    shifted r c ⬝ᵥ Fin.snoc (α := fun _ => ℝ) y t = r ⬝ᵥ (y - t • c) := by
  rw [shifted, snoc_dotProduct, dotProduct_sub, dotProduct_smul, smul_eq_mul]; ring

/-- The column `i` of a matrix. -/
def colv {m : ℕ} (R : Matrix (Fin m) (Fin n) ℝ) (i : Fin n) : Fin m → ℝ := fun k => R k i

theorem colv_dot {m : ℕ} (R : Matrix (Fin m) (Fin n) ℝ) (i : Fin n) (v : Fin m → ℝ) :
    colv R i ⬝ᵥ v = (Rᵀ *ᵥ v) i := rfl

theorem realizable_ellipsoid_iff {R : Matrix (Fin n) (Fin n) ℝ} (hR : Spec.Orthogonal R)
    (a c : Fin n → ℝ) (m : ℝ) (f : Fin n → ℝ) (H : Matrix (Fin n) (Fin n) ℝ) :
    Spec.Realizable (Spec.ellipsoid a R c) m f H ↔
      Spec.PSD (bordered H f f m) ∧
      0 ≤ (qMatrix (R * Matrix.diagonal (fun i => (1 / a i) ^ 2) * Rᵀ) c * bordered H f f m).trace ∧
      ∀ i, a i = 0 → shifted (colv R i) c ⬝ᵥ (bordered H f f m *ᵥ shifted (colv R i) c) = 0 := by
  set S := R * Matrix.diagonal (fun i => (1 / a i) ^ 2) * Rᵀ
  have hS : Sᵀ = S := conj_diag_transpose R _
  set Q := qMatrix S c
  have hq : ∀ (y : Fin n → ℝ) (t : ℝ), (Fin.snoc (α := fun _ => ℝ) y t) ⬝ᵥ (Q *ᵥ Fin.snoc (α := fun _ => ℝ) y t) =
      t ^ 2 - ∑ i, ((Rᵀ *ᵥ (y - t • c)) i / a i) ^ 2 := by
    intro y t
    rw [qMatrix_quad _ hS, one_mul, quad_diag]
    congr 1
    refine Finset.sum_congr rfl fun i _ => ?_
    ring
  constructor
  · rintro ⟨s, hs, hin, rfl, rfl, rfl⟩
    have hmem : ∀ mp ∈ s, (∀ i, a i = 0 → (Rᵀ *ᵥ (mp.2 - c)) i = 0) ∧
        ∑ i, ((Rᵀ *ᵥ (mp.2 - c)) i / a i) ^ 2 ≤ 1 := by
      intro mp hmp
      have := hin mp hmp
      rwa [Spec_ellipsoid_iff hR] at this
    rw [pm_bordered]
    have hpsd : ∀ X ∈ (s.map fun mp => mp.1 • outer (Fin.snoc (α := fun _ => ℝ) mp.2 1) (Fin.snoc (α := fun _ => ℝ) mp.2 1)), Spec.PSD X := by
      intro X hX
      obtain ⟨mp, hmp, rfl⟩ := List.mem_map.mp hX
      exact (Spec.PSD.outer _).smul (hs mp hmp)
    refine ⟨Spec.PSD.list_sum _ hpsd, ?_, fun i hi => ?_⟩
    · have key : ∀ l : List (ℝ × (Fin n → ℝ)), (∀ mp ∈ l, mp ∈ s) → 0 ≤ (Q * (l.map fun mp => mp.1 • outer (Fin.snoc (α := fun _ => ℝ) mp.2 1) (Fin.snoc (α := fun _ => ℝ) mp.2 1)).sum).trace := by
        intro l
        induction l with
        | nil => simp
        | cons mp l ih =>
          intro hl
          simp only [List.map_cons, List.sum_cons, Matrix.mul_add, Matrix.trace_add]
          refine add_nonneg ?_ (ih fun x hx => hl x (by simp [hx]))
          rw [Matrix.mul_smul, Matrix.trace_smul, trace_mul_outer, hq, one_smul, one_pow, smul_eq_mul]
          exact mul_nonneg (hs mp (hl mp (by simp))) (sub_nonneg.mpr (hmem mp (hl mp (by simp))).2)
      exact key s fun _ h => h
    · have key : ∀ l : List (ℝ × (Fin n → ℝ)), (∀ mp ∈ l, mp ∈ s) → (l.map fun mp => mp.1 • outer (Fin.snoc (α := fun _ => ℝ) mp.2 1) (Fin.snoc (α := fun _ => ℝ) mp.2 1)).sum *ᵥ shifted (colv R i) c = 0 := by
        intro l
        induction l with
        | nil => simp
        | cons mp l ih =>
          intro hl
          simp only [List.map_cons, List.sum_cons, Matrix.add_mulVec]
          rw [ih fun x hx => hl x (by simp [hx]), smul_mulVec, outer_mulVec, dotProduct_comm, shifted_dot,
            one_smul, colv_dot, (hmem mp (hl mp (by simp))).1 i hi]
          simp
      rw [key s fun _ h => h, dotProduct_zero]
  · rintro ⟨hJ, htr, hz⟩
    obtain ⟨u, hu⟩ := hJ.exists_outer
    let us : List (Fin (n + 1) → ℝ) := List.ofFn u
    have hus : (us.map fun v => outer v v).sum = bordered H f f m := by
      rw [hu, List.map_ofFn, List.sum_ofFn]; rfl
    let W : Submodule ℝ (Fin (n + 1) → ℝ) :=
      { carrier := {v | ∀ i, a i = 0 → shifted (colv R i) c ⬝ᵥ v = 0}
        add_mem' := fun {x y} hx hy i hi => by rw [dotProduct_add, hx i hi, hy i hi, add_zero]
        zero_mem' := fun i _ => dotProduct_zero _
        smul_mem' := fun r x hx i hi => by rw [dotProduct_smul, hx i hi, smul_zero] }
    have hW : ∀ v ∈ us, v ∈ W := by
      intro v hv i hi
      obtain ⟨k, rfl⟩ := (List.mem_ofFn' _ _).mp hv
      have := hz i hi
      rw [hu, Matrix.sum_mulVec, dotProduct_sum] at this
      simp only [outer_quad] at this
      have h0 := (Finset.sum_eq_zero_iff_of_nonneg (fun j _ => sq_nonneg _)).mp this k (Finset.mem_univ k)
      rw [dotProduct_comm]
      exact pow_eq_zero_iff (two_ne_zero) |>.mp h0
    have hsumq : 0 ≤ (us.map fun v => v ⬝ᵥ (Q *ᵥ v)).sum := by
      rw [← trace_mul_list_outer, hus]; exact htr
    obtain ⟨vs, hvs, hsum⟩ := sturm_zhang Q W us.length us rfl hW hsumq
    rw [hus] at hsum
    -- points
    let pt : (Fin (n + 1) → ℝ) → ℝ × (Fin n → ℝ) := fun v =>
      (v (Fin.last n) ^ 2, (v (Fin.last n))⁻¹ • Fin.init (α := fun _ => ℝ) v)
    let s : Spec.PointMasses ℝ n := (vs.filter fun v => v (Fin.last n) ≠ 0).map pt
    have hsn : ∀ v : Fin (n + 1) → ℝ, Fin.snoc (α := fun _ => ℝ) (Fin.init (α := fun _ => ℝ) v) (v (Fin.last n)) = v :=
      fun v => Fin.snoc_init_self v
    have hv1 : ∀ v ∈ vs, (∀ i, a i = 0 → (Rᵀ *ᵥ (Fin.init (α := fun _ => ℝ) v - v (Fin.last n) • c)) i = 0) ∧
        ∑ i, ((Rᵀ *ᵥ (Fin.init (α := fun _ => ℝ) v - v (Fin.last n) • c)) i / a i) ^ 2 ≤ v (Fin.last n) ^ 2 := by
      intro v hv
      obtain ⟨h1, h2⟩ := hvs v hv
      rw [← hsn v, hq] at h2
      refine ⟨fun i hi => ?_, by linarith⟩
      have := h1 i hi
      rwa [← hsn v, shifted_dot, colv_dot] at this
    have hmat : bordered s.second s.first s.first s.mass = bordered H f f m := by
      rw [pm_bordered, ← hsum]
      simp only [s, List.map_map]
      have key : ∀ l : List (Fin (n + 1) → ℝ), (∀ v ∈ l, v ∈ vs) →
          ((l.filter fun v => v (Fin.last n) ≠ 0).map ((fun mp : ℝ × (Fin n → ℝ) => mp.1 • outer (Fin.snoc (α := fun _ => ℝ) mp.2 1) (Fin.snoc (α := fun _ => ℝ) mp.2 1)) ∘ pt)).sum =
          (l.map fun v => outer v v).sum := by
        intro l
        induction l with
        | nil => simp
        | cons v l ih =>
          intro hl
          have ih' := ih fun x hx => hl x (by simp [hx])
          by_cases h0 : v (Fin.last n) = 0
          · rw [List.filter_cons_of_neg (by simpa using h0), ih']
            have hv0 : v = 0 := by
              obtain ⟨h1, h2⟩ := hv1 v (hl v (by simp))
              rw [h0, zero_smul, sub_zero] at h1 h2
              have h3 : Rᵀ *ᵥ Fin.init (α := fun _ => ℝ) v = 0 := by
                ext i
                by_cases hi : a i = 0
                · exact h1 i hi
                · have h4 := (Finset.sum_eq_zero_iff_of_nonneg (fun j _ => sq_nonneg _)).mp
                    (le_antisymm (by simpa using h2) (Finset.sum_nonneg fun j _ => sq_nonneg _)) i (Finset.mem_univ i)
                  have h5 := pow_eq_zero_iff (two_ne_zero) |>.mp h4
                  exact (div_eq_zero_iff.mp h5).resolve_right hi
              have h6 : Fin.init (α := fun _ => ℝ) v = 0 := by
                have := congrArg (R *ᵥ ·) h3
                simpa only [mulVec_mulVec, hR.mul_transpose, one_mulVec, mulVec_zero] using this
              rw [← hsn v, h6, h0]
              ext i
              refine Fin.lastCases ?_ (fun i => ?_) i <;> simp
            simp [hv0, outer]
            rfl
          · rw [List.filter_cons_of_pos (by simpa using h0), List.map_cons, List.sum_cons, ih', List.map_cons,
              List.sum_cons]
            congr 1
            simp only [Function.comp, pt]
            conv_rhs => rw [← hsn v]
            rw [outer_snoc, outer_snoc, bordered_smul, bordered_inj]
            refine ⟨?_, ?_, ?_, ?_⟩
            · ext i j; simp only [Matrix.smul_apply, outer_apply, Pi.smul_apply, smul_eq_mul]; field_simp
            · ext i; simp only [Pi.smul_apply, smul_eq_mul]; field_simp
            · ext i; simp only [Pi.smul_apply, smul_eq_mul]; field_simp
            · ring
      exact key vs fun _ h => h
    rw [bordered_inj] at hmat
    refine ⟨s, ?_, ?_, hmat.2.2.2, hmat.2.1, hmat.1⟩
    · intro mp hmp
      obtain ⟨v, -, rfl⟩ := List.mem_map.mp hmp
      exact sq_nonneg _
    · intro mp hmp
      obtain ⟨v, hv, rfl⟩ := List.mem_map.mp hmp
      rw [List.mem_filter] at hv
      have h0 : v (Fin.last n) ≠ 0 := by simpa using hv.2
      obtain ⟨h1, h2⟩ := hv1 v hv.1
      have e : (pt v).2 - c = (v (Fin.last n))⁻¹ • (Fin.init (α := fun _ => ℝ) v - v (Fin.last n) • c) := by
        simp only [pt, smul_sub, smul_smul, inv_mul_cancel₀ h0, one_smul]
      rw [Spec_ellipsoid_iff hR, e]
      simp only [mulVec_smul, Pi.smul_apply, smul_eq_mul]
      refine ⟨fun i hi => by rw [h1 i hi, mul_zero], ?_⟩
      have e2 : ∀ i, ((v (Fin.last n))⁻¹ * (Rᵀ *ᵥ (Fin.init (α := fun _ => ℝ) v - v (Fin.last n) • c)) i / a i) ^ 2 =
          (v (Fin.last n) ^ 2)⁻¹ * ((Rᵀ *ᵥ (Fin.init (α := fun _ => ℝ) v - v (Fin.last n) • c)) i / a i) ^ 2 := by
        intro i; rw [mul_div_assoc, mul_pow, inv_pow]
      simp only [e2, ← Finset.mul_sum]
      rw [inv_mul_le_iff₀ (by positivity), mul_one]
      exact h2

end Ellipsoid
end Rigeo
