import Verif.Spec.PolyhedronProgram
import Verif.Props.Same

/-!
# C119: programs that build polyhedra
-/

namespace Rigeo

open Matrix

variable {K : Type} [Field K] [LinearOrder K] [IsStrictOrderedRing K] {d : ℕ}

theorem Poly.Consistent.nonempty {P : Poly K d} (h : P.Consistent) : (Spec.hull P.vertices).Nonempty := by
  obtain ⟨v, hv⟩ := List.exists_mem_of_ne_nil _ h.1
  exact ⟨v, subset_convexHull K _ hv⟩

theorem Poly.Consistent.hull_eq {P : Poly K d} (h : P.Consistent) {S : Set (Fin d → K)}
    (hS : ∀ p, P.contains p 0 = true ↔ p ∈ S) : Spec.hull P.vertices = S := by
  ext p
  rw [← hS, h.contains_iff]

/-- C119: an expression built from `from_vertices`, `from_halfspaces`, `simplex`, `intersect` and `transform`, in which no operation
is applied to an empty intersection, evaluates to `None` if the set it denotes is empty, and otherwise to a polyhedron whose faces and
whose vertices describe exactly that set. -/
theorem C119_run (cdd : CddLib K) (hcdd : Spec.IsCdd cdd) (e : PolyhedronProgram K d) (hargs : Spec.PolyhedronArgsOk e)
    (hmeet : Spec.OperandsMeet e) :
    (Spec.programPolyhedron e = ∅ → e.run cdd = .ok none) ∧
    ((Spec.programPolyhedron e).Nonempty → ∃ P, e.run cdd = .ok (some P) ∧ P.Consistent ∧
      Spec.hull P.vertices = Spec.programPolyhedron e ∧ ∀ p, P.contains p 0 = true ↔ p ∈ Spec.programPolyhedron e) := by
  have leaf : ∀ (S : Set (Fin d → K)) (r : Py (Option (Poly K d))),
      (∃ P, r = .ok (some P) ∧ P.Consistent ∧ ∀ p, P.contains p 0 = true ↔ p ∈ S) →
      (S = ∅ → r = .ok none) ∧ (S.Nonempty → ∃ P, r = .ok (some P) ∧ P.Consistent ∧ Spec.hull P.vertices = S ∧
        ∀ p, P.contains p 0 = true ↔ p ∈ S) := by
    rintro S r ⟨P, hr, hP, hS⟩
    have hh := hP.hull_eq hS
    refine ⟨fun h0 => absurd hP.nonempty (by rw [hh, h0]; exact Set.not_nonempty_empty), fun _ => ⟨P, hr, hP, hh, hS⟩⟩
  induction e with
  | vertices points prune =>
    refine leaf _ _ ?_
    cases prune with
    | false =>
      obtain ⟨P, h1, -, h2, h3⟩ := C64_from_vertices cdd hcdd points hargs
      exact ⟨P, by simp only [PolyhedronProgram.run, h1]; rfl, h2, h3⟩
    | true =>
      obtain ⟨P, h1, -, -, h2, h3⟩ := C64_from_vertices_prune cdd hcdd points hargs
      exact ⟨P, by simp only [PolyhedronProgram.run, h1]; rfl, h2, h3⟩
  | halfspaces faces =>
    refine leaf _ _ ?_
    obtain ⟨P, h1, -, h2, h3⟩ := (C64_from_halfspaces cdd hcdd faces hargs.1).2.2 hargs.2.1 hargs.2.2
    exact ⟨P, by simp only [PolyhedronProgram.run, h1]; rfl, h2, h3⟩
  | simplex extents =>
    refine leaf _ _ ?_
    obtain ⟨P, h1, h2, -, h3⟩ := (C64_simplex cdd hcdd extents).1 hargs
    exact ⟨P, by simp only [PolyhedronProgram.run, h1]; rfl, h2, h3⟩
  | intersect a b iha ihb =>
    obtain ⟨P, hP1, hP2, hP3, hP4⟩ := (iha hargs.1 hmeet.1).2 hmeet.2.2.1
    obtain ⟨Q, hQ1, hQ2, hQ3, hQ4⟩ := (ihb hargs.2 hmeet.2.1).2 hmeet.2.2.2
    have hr : (PolyhedronProgram.intersect a b).run cdd = P.intersect cdd Q := by
      simp only [PolyhedronProgram.run, hP1, hQ1]; rfl
    have hI := C62_intersect cdd hcdd P Q hP2 hQ2
    rw [hP3, hQ3] at hI
    rw [hr]
    refine ⟨hI.1, fun hne => ?_⟩
    obtain ⟨S, h1, h2, h3, -⟩ := hI.2 hne
    exact ⟨S, h1, h2, h3, fun p => by rw [h2.contains_iff, h3]; rfl⟩
  | transform R t a ih =>
    refine leaf _ _ ?_
    obtain ⟨P, hP1, hP2, hP3, hP4⟩ := (ih hargs.2 hmeet.1).2 hmeet.2
    obtain ⟨S, h1, h2, -, h3⟩ := C33_poly_partial cdd hcdd P hP2 R hargs.1 t
    refine ⟨S, by simp only [PolyhedronProgram.run, hP1, h1, bind, Except.bind, pure, Except.pure], h2, fun p => ?_⟩
    constructor
    · intro hp
      have hpe : p = Spec.rigid R t (Rᵀ *ᵥ (p - t)) := (rigid_iff hargs.1 _ _ _).2 rfl
      rw [hpe, h3] at hp
      exact ⟨_, (hP4 _).1 hp, hpe.symm⟩
    · rintro ⟨q, hq, rfl⟩
      rw [h3]
      exact (hP4 q).2 hq

/-- C119: if some operation is applied to an empty intersection the expression raises: an `AttributeError` for `None.intersect` and
`None.transform`, an `AssertionError` for `intersect(None)`. -/
theorem C119_fails (cdd : CddLib K) (hcdd : Spec.IsCdd cdd) (e : PolyhedronProgram K d) (hargs : Spec.PolyhedronArgsOk e)
    (hmeet : ¬ Spec.OperandsMeet e) : e.run cdd = .error .attribute ∨ e.run cdd = .error .assertion := by
  induction e with
  | vertices => exact absurd trivial hmeet
  | halfspaces => exact absurd trivial hmeet
  | simplex => exact absurd trivial hmeet
  | intersect a b iha ihb =>
    by_cases ha : Spec.OperandsMeet a
    · have hra := C119_run cdd hcdd a hargs.1 ha
      rcases Set.eq_empty_or_nonempty (Spec.programPolyhedron a) with h0 | hne
      · left; simp only [PolyhedronProgram.run, hra.1 h0]; rfl
      · obtain ⟨P, hP, -⟩ := hra.2 hne
        by_cases hb : Spec.OperandsMeet b
        · have hrb := C119_run cdd hcdd b hargs.2 hb
          rcases Set.eq_empty_or_nonempty (Spec.programPolyhedron b) with h1 | hne'
          · right; simp only [PolyhedronProgram.run, hP, hrb.1 h1]; rfl
          · exact absurd ⟨ha, hb, hne, hne'⟩ hmeet
        · rcases ihb hargs.2 hb with h | h
          · left; simp only [PolyhedronProgram.run, hP, h]; rfl
          · right; simp only [PolyhedronProgram.run, hP, h]; rfl
    · rcases iha hargs.1 ha with h | h
      · left; simp only [PolyhedronProgram.run, h]; rfl
      · right; simp only [PolyhedronProgram.run, h]; rfl
  | transform R t a ih =>
    by_cases ha : Spec.OperandsMeet a
    · have hra := C119_run cdd hcdd a hargs.2 ha
      rcases Set.eq_empty_or_nonempty (Spec.programPolyhedron a) with h0 | hne
      · left; simp only [PolyhedronProgram.run, hra.1 h0]; rfl
      · exact absurd ⟨ha, hne⟩ hmeet
    · rcases ih hargs.2 ha with h | h
      · left; simp only [PolyhedronProgram.run, h]; rfl
      · right; simp only [PolyhedronProgram.run, h]; rfl

/-- C119: which error an operation on an empty intersection raises, once its operands have been evaluated. -/
theorem C119_errors (cdd : CddLib K) (hcdd : Spec.IsCdd cdd) (a b : PolyhedronProgram K d) (ha : Spec.PolyhedronArgsOk a)
    (hb : Spec.PolyhedronArgsOk b) (hma : Spec.OperandsMeet a) (hmb : Spec.OperandsMeet b) (R : Matrix (Fin d) (Fin d) K)
    (t : Fin d → K) :
    (Spec.programPolyhedron a = ∅ → (PolyhedronProgram.transform R t a).run cdd = .error .attribute ∧
      ∀ c, (PolyhedronProgram.intersect a c).run cdd = .error .attribute) ∧
    ((Spec.programPolyhedron a).Nonempty → Spec.programPolyhedron b = ∅ →
      (PolyhedronProgram.intersect a b).run cdd = .error .assertion) := by
  have hra := C119_run cdd hcdd a ha hma
  have hrb := C119_run cdd hcdd b hb hmb
  refine ⟨fun h => ⟨?_, fun c => ?_⟩, fun h1 h2 => ?_⟩
  · simp only [PolyhedronProgram.run, hra.1 h]; rfl
  · simp only [PolyhedronProgram.run, hra.1 h]; rfl
  · obtain ⟨P, hP, -⟩ := hra.2 h1
    simp only [PolyhedronProgram.run, hP, hrb.1 h2]; rfl

/-- C119: the values of two expressions compare as the sets they denote: `contains_polyhedron` is inclusion and `is_same` is
equality; with a tolerance, expressions that denote the same set still compare as the same. -/
theorem C119_compare (cdd : CddLib K) (hcdd : Spec.IsCdd cdd) (e f : PolyhedronProgram K d) (he : Spec.PolyhedronArgsOk e)
    (hf : Spec.PolyhedronArgsOk f) (hme : Spec.OperandsMeet e) (hmf : Spec.OperandsMeet f) (P Q : Poly K d)
    (hP : e.run cdd = .ok (some P)) (hQ : f.run cdd = .ok (some Q)) :
    (Poly.containsPolyhedron (fun p => P.contains p 0) Q.vertices = true ↔
      Spec.programPolyhedron f ⊆ Spec.programPolyhedron e) ∧
    (P.isSame Q 0 = true ↔ Spec.programPolyhedron e = Spec.programPolyhedron f) ∧
    (Spec.programPolyhedron e = Spec.programPolyhedron f → ∀ tol, 0 ≤ tol → P.isSame Q tol = true) := by
  have key : ∀ (g : PolyhedronProgram K d) (G : Poly K d), Spec.PolyhedronArgsOk g → Spec.OperandsMeet g →
      g.run cdd = .ok (some G) → G.Consistent ∧ Spec.hull G.vertices = Spec.programPolyhedron g := by
    intro g G hg hm hr
    have h := C119_run cdd hcdd g hg hm
    rcases Set.eq_empty_or_nonempty (Spec.programPolyhedron g) with h0 | hne
    · rw [h.1 h0] at hr; cases hr
    · obtain ⟨G', h1, h2, h3, -⟩ := h.2 hne
      rw [h1] at hr
      cases hr
      exact ⟨h2, h3⟩
  obtain ⟨hPc, hPh⟩ := key e P he hme hP
  obtain ⟨hQc, hQh⟩ := key f Q hf hmf hQ
  have h1 := Poly.containsPolyhedron_hull (Q := Q) hPc
  have h2 := Poly.containsPolyhedron_hull (Q := P) hQc
  rw [hPh, hQh] at h1 h2
  refine ⟨h1, ?_, fun h tol htol => C45_poly_tol P Q hPc hQc tol htol (by rw [hPh, hQh, h])⟩
  unfold Poly.isSame
  rw [Bool.and_eq_true, h1, h2]
  exact ⟨fun h => Set.Subset.antisymm h.2 h.1, fun h => ⟨h.ge, h.le⟩⟩

/-- C119: if two polyhedra meet, the transform of their intersection is the intersection of their transforms: `is_same` holds, with
any tolerance. -/
theorem C119_distribute (cdd : CddLib K) (hcdd : Spec.IsCdd cdd) (a b : PolyhedronProgram K d) (R : Matrix (Fin d) (Fin d) K)
    (t : Fin d → K) (hR : Spec.Orthogonal R) (ha : Spec.PolyhedronArgsOk a) (hb : Spec.PolyhedronArgsOk b)
    (hma : Spec.OperandsMeet a) (hmb : Spec.OperandsMeet b)
    (hne : (Spec.programPolyhedron a ∩ Spec.programPolyhedron b).Nonempty) :
    ∃ P Q, (PolyhedronProgram.transform R t (.intersect a b)).run cdd = .ok (some P) ∧
      (PolyhedronProgram.intersect (.transform R t a) (.transform R t b)).run cdd = .ok (some Q) ∧
      ∀ tol, 0 ≤ tol → P.isSame Q tol = true := by
  have hinj : Function.Injective (Spec.rigid R t) := fun x y h => by
    rw [(rigid_iff hR t _ x).1 rfl, (rigid_iff hR t _ y).1 rfl, h]
  have hset : Spec.programPolyhedron (PolyhedronProgram.transform R t (.intersect a b)) =
      Spec.programPolyhedron (PolyhedronProgram.intersect (.transform R t a) (.transform R t b)) :=
    Set.image_inter hinj
  have hna : (Spec.programPolyhedron a).Nonempty := hne.mono Set.inter_subset_left
  have hnb : (Spec.programPolyhedron b).Nonempty := hne.mono Set.inter_subset_right
  have hn1 : (Spec.programPolyhedron (PolyhedronProgram.transform R t (.intersect a b))).Nonempty := hne.image _
  have ha1 : Spec.PolyhedronArgsOk (PolyhedronProgram.transform R t (.intersect a b)) := ⟨hR, ha, hb⟩
  have ha2 : Spec.PolyhedronArgsOk (PolyhedronProgram.intersect (.transform R t a) (.transform R t b)) :=
    ⟨⟨hR, ha⟩, hR, hb⟩
  have hm1 : Spec.OperandsMeet (PolyhedronProgram.transform R t (.intersect a b)) := ⟨⟨hma, hmb, hna, hnb⟩, hne⟩
  have hm2 : Spec.OperandsMeet (PolyhedronProgram.intersect (.transform R t a) (.transform R t b)) :=
    ⟨⟨hma, hna⟩, ⟨hmb, hnb⟩, hna.image _, hnb.image _⟩
  obtain ⟨P, hP, -⟩ := (C119_run cdd hcdd _ ha1 hm1).2 hn1
  obtain ⟨Q, hQ, -⟩ := (C119_run cdd hcdd _ ha2 hm2).2 (hset ▸ hn1)
  exact ⟨P, Q, hP, hQ, (C119_compare cdd hcdd _ _ ha1 ha2 hm1 hm2 P Q hP hQ).2.2 hset⟩

/-- C119: if two polyhedra do not meet, `a.intersect(b).transform(R, t)` raises an `AttributeError`, although the intersection of the
transforms is `None`. -/
theorem C119_distribute_empty (cdd : CddLib K) (hcdd : Spec.IsCdd cdd) (a b : PolyhedronProgram K d)
    (R : Matrix (Fin d) (Fin d) K) (t : Fin d → K) (hR : Spec.Orthogonal R) (ha : Spec.PolyhedronArgsOk a)
    (hb : Spec.PolyhedronArgsOk b) (hma : Spec.OperandsMeet a) (hmb : Spec.OperandsMeet b)
    (hna : (Spec.programPolyhedron a).Nonempty) (hnb : (Spec.programPolyhedron b).Nonempty)
    (h : Spec.programPolyhedron a ∩ Spec.programPolyhedron b = ∅) :
    (PolyhedronProgram.transform R t (.intersect a b)).run cdd = .error .attribute ∧
      (PolyhedronProgram.intersect (.transform R t a) (.transform R t b)).run cdd = .ok none := by
  have hinj : Function.Injective (Spec.rigid R t) := fun x y h => by
    rw [(rigid_iff hR t _ x).1 rfl, (rigid_iff hR t _ y).1 rfl, h]
  have hset : Spec.programPolyhedron (PolyhedronProgram.intersect (.transform R t a) (.transform R t b)) = ∅ := by
    have : Spec.rigid R t '' (Spec.programPolyhedron a ∩ Spec.programPolyhedron b) =
        Spec.programPolyhedron (PolyhedronProgram.intersect (.transform R t a) (.transform R t b)) := Set.image_inter hinj
    rw [← this, h, Set.image_empty]
  exact ⟨((C119_errors cdd hcdd (.intersect a b) (.intersect a b) ⟨ha, hb⟩ ⟨ha, hb⟩ ⟨hma, hmb, hna, hnb⟩ ⟨hma, hmb, hna, hnb⟩
    R t).1 h).1, (C119_run cdd hcdd (PolyhedronProgram.intersect (.transform R t a) (.transform R t b)) ⟨⟨hR, ha⟩, hR, hb⟩
    ⟨⟨hma, hna⟩, ⟨hmb, hnb⟩, hna.image _, hnb.image _⟩).1 hset⟩

/-! ### The hypotheses can be met -/

/-- A triangle, intersected with the unit square moved by a quarter turn and a shift that still meets it, and the same with a shift
that does not, used once more. -/
example : ∃ (cdd : CddLib ℚ) (meets misses : PolyhedronProgram ℚ 2), Spec.IsCdd cdd ∧ Spec.PolyhedronArgsOk meets ∧
    Spec.OperandsMeet meets ∧ (Spec.programPolyhedron meets).Nonempty ∧ Spec.PolyhedronArgsOk misses ∧
    Spec.OperandsMeet misses ∧ Spec.programPolyhedron misses = ∅ ∧
    ¬ Spec.OperandsMeet (PolyhedronProgram.transform 1 0 misses) := by
  obtain ⟨cdd, hcdd⟩ := exists_cdd (K := ℚ)
  let R : Matrix (Fin 2) (Fin 2) ℚ := !![0, -1; 1, 0]
  have hR : Spec.Orthogonal R := by
    unfold Spec.Orthogonal
    ext i j; fin_cases i <;> fin_cases j <;> simp [R, Matrix.mul_apply, Fin.sum_univ_two]
  let square : List ((Fin 2 → ℚ) × ℚ) := [(![1, 0], 1), (![-1, 0], 0), (![0, 1], 1), (![0, -1], 0)]
  have hmem : ∀ p : Fin 2 → ℚ, p ∈ Spec.halfspaces square ↔ p 0 ≤ 1 ∧ 0 ≤ p 0 ∧ p 1 ≤ 1 ∧ 0 ≤ p 1 := by
    intro p
    simp [Spec.halfspaces, square, dotProduct, Fin.sum_univ_two]
  have h0 : (0 : Fin 2 → ℚ) ∈ Spec.halfspaces square := (hmem 0).2 (by simp)
  have hbd : Spec.Bounded (Spec.halfspaces square) := by
    refine ⟨1, fun x hx i => ?_⟩
    obtain ⟨h1, h2, h3, h4⟩ := (hmem x).1 hx
    fin_cases i
    · exact abs_le.2 ⟨by simp only [Fin.zero_eta]; linarith, h1⟩
    · exact abs_le.2 ⟨by simp only [Fin.mk_one]; linarith, h3⟩
  let tri : PolyhedronProgram ℚ 2 := .simplex ![2, 1]
  have ht : Spec.PolyhedronArgsOk tri := by
    show ∀ i, (0 : ℚ) < (![2, 1] : Fin 2 → ℚ) i
    intro i; fin_cases i <;> norm_num
  have ht0 : (0 : Fin 2 → ℚ) ∈ Spec.programPolyhedron tri := ⟨fun i => le_rfl, by simp⟩
  have hs : Spec.PolyhedronArgsOk (PolyhedronProgram.halfspaces square) := ⟨by simp [square], ⟨0, h0⟩, hbd⟩
  have hfar : Spec.programPolyhedron (PolyhedronProgram.intersect tri (.transform R ![-1, 0] (.halfspaces square))) = ∅ := by
    refine Set.eq_empty_iff_forall_notMem.2 ?_
    rintro p ⟨⟨h1, -⟩, q, hq, rfl⟩
    have h2 := h1 0
    obtain ⟨-, -, h3, h4⟩ := (hmem q).1 hq
    simp [Spec.rigid, R, Matrix.mulVec, dotProduct, Fin.sum_univ_two] at h2
    linarith
  refine ⟨cdd, .intersect tri (.transform R 0 (.halfspaces square)), .intersect tri (.transform R ![-1, 0] (.halfspaces square)),
    hcdd, ⟨ht, hR, hs⟩, ⟨trivial, ⟨trivial, 0, h0⟩, ⟨0, ht0⟩, ⟨_, Set.mem_image_of_mem _ h0⟩⟩, ⟨0, ht0, 0, h0, ?_⟩, ⟨ht, hR, hs⟩,
    ⟨trivial, ⟨trivial, 0, h0⟩, ⟨0, ht0⟩, ⟨_, Set.mem_image_of_mem _ h0⟩⟩, hfar, ?_⟩
  · simp [Spec.rigid]
  · rintro ⟨-, h⟩
    rw [hfar] at h
    exact Set.not_nonempty_empty h

end Rigeo
