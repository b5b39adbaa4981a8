import Verif.Lemmas.NdArray
import Verif.Model.Batch
import Verif.Props.Sampling2

/-!
# C98: the arrays returned by the sampling functions

For every requested shape, the array has the shape `shape + (d,)`, and each of its points is what the row-by-row model
computes from the draws at the same index. The exceptions are the requests for one point.
-/

namespace Rigeo

open Matrix NdArray Spec

section Field
variable {K : Type} [Field K] [LinearOrder K]

theorem vdiv_ok {n : ℕ} {v : Fin n → K} {s : K} {p : Fin n → K} (h : vdiv v s = .ok p) : s ≠ 0 ∧ p = fun i => v i / s := by
  unfold vdiv at h
  split at h
  · cases h
  · exact ⟨‹_›, (Except.ok.inj h).symm⟩

omit [LinearOrder K] in
/-- The array of weight vectors, with the division written out. -/
theorem weights_rows (s : List ℕ) (n : ℕ) (draw : List ℕ → K) : ∃ out, randomWeightVectorsArray (s ++ [n]) draw = .ok out ∧
    Rows out s n fun i k => draw (i ++ [(k : ℕ)]) / ∑ j : Fin n, draw (i ++ [(j : ℕ)]) := by
  obtain ⟨c, hc, hc'⟩ := reduce_last NdArray.sum (a := ⟨s ++ [n], draw⟩) (s := s) (n := n) rfl
  obtain ⟨e, he, hes, he'⟩ := expand_last hc'
  obtain ⟨o, ho, hos, ho'⟩ := zip_one (· / ·) (a := ⟨s ++ [n], draw⟩) (b := e) (s := s) (n := n) rfl hes
  refine ⟨o, ?_, hos, fun i hi k => ?_⟩
  · have hl : (NdArray.mk (s ++ [n]) draw).ndim - 1 = s.length := by simp [ndim]
    rw [randomWeightVectorsArray]
    simp only [hc, bind, Except.bind]
    rw [hl, he]
    exact ho
  · rw [ho' i hi k, he' i hi 0]
    simp only [NdArray.sum]
    rw [Finset.sum_range]

/-- C98: `random_weight_vectors(shape + (n,))` has that shape, and the vector at index `i` is the one the row model computes
from the draws at `i`. -/
theorem C98_weights (s : List ℕ) (n : ℕ) (draw : List ℕ → K) : ∃ out, randomWeightVectorsArray (s ++ [n]) draw = .ok out ∧
    Sampled out s n fun i => randomWeightVector fun k : Fin n => draw (i ++ [(k : ℕ)]) := by
  obtain ⟨o, ho, hs, h⟩ := weights_rows s n draw
  refine ⟨o, ho, hs, fun i hi p hp k => ?_⟩
  rw [h i hi k, (vdiv_ok hp).2]

theorem poly_rows {d : ℕ} (P : Poly K d) (s : List ℕ) (draw : List ℕ → K) : ∃ w out,
    randomWeightVectorsArray (s ++ [P.vertices.length]) draw = .ok w ∧
    w.matmul (ofMatrix (Matrix.of fun i : Fin P.vertices.length => P.vertices.get i)) = .ok out ∧
    Rows out s d fun i => P.randomPoint fun k => draw (i ++ [(k : ℕ)]) / ∑ j : Fin P.vertices.length, draw (i ++ [(j : ℕ)]) := by
  obtain ⟨w, hw, hr⟩ := weights_rows s P.vertices.length draw
  obtain ⟨o, ho, hor⟩ := matmul_mat hr (Matrix.of fun i : Fin P.vertices.length => P.vertices.get i)
  refine ⟨w, o, hw, ho, hor.1, fun i hi k => ?_⟩
  rw [hor.2 i hi k]
  simp [Poly.randomPoint, Matrix.vecMul, dotProduct, Finset.sum_apply]

/-- C98: `ConvexPolyhedron.random_points(shape)` has shape `shape + (d,)` unless one point is requested. -/
theorem C98_poly {d : ℕ} (P : Poly K d) (shape : ShapeArg) (h1 : shape.toTuple ≠ [1]) (draw : List ℕ → K) :
    ∃ out, P.randomPointsArray shape draw = .ok out ∧
      Sampled out shape.toTuple d fun i => P.randomPoints fun k => draw (i ++ [(k : ℕ)]) := by
  obtain ⟨w, o, hw, ho, hs, h⟩ := poly_rows P shape.toTuple draw
  refine ⟨o, by simp only [Poly.randomPointsArray, hw, ho, h1, bind, Except.bind, pure, Except.pure, if_false], hs,
    fun i hi p hp k => ?_⟩
  rw [h i hi k]
  simp only [Poly.randomPoints, randomWeightVector, bind, Except.bind] at hp
  split at hp
  · cases hp
  · rename_i q hq
    rw [← Except.ok.inj hp, (vdiv_ok hq).2]

/-- C98: for a request of one point, as `1` or as `(1,)`, the axis of length one is dropped. The dimension must not be 1 … -/
theorem C98_poly_one {d : ℕ} (hd : d ≠ 1) (P : Poly K d) (shape : ShapeArg) (h1 : shape.toTuple = [1]) (draw : List ℕ → K) :
    ∃ out, P.randomPointsArray shape draw = .ok out ∧
      Sampled out [] d fun _ => P.randomPoints fun k => draw [0, (k : ℕ)] := by
  obtain ⟨w, o, hw, ho, hr⟩ := poly_rows P [1] draw
  have hsq := squeeze_one hd hr
  refine ⟨o.squeeze, by simp only [Poly.randomPointsArray, h1, hw, ho, bind, Except.bind, pure, Except.pure, if_true],
    hsq.1, fun i hi p hp k => ?_⟩
  rw [hsq.2 i hi k]
  simp only [Poly.randomPoints, randomWeightVector, bind, Except.bind] at hp
  split at hp
  · cases hp
  · rename_i q hq
    rw [← Except.ok.inj hp, (vdiv_ok hq).2]
    rfl

/-- C98: … because in dimension 1 the axis of the coordinates is dropped too: the point is returned as a number, an array
without axes, which `contains` of the same polyhedron refuses. -/
theorem C98_poly_line (P : Poly K 1) (shape : ShapeArg) (h1 : shape.toTuple = [1]) (draw : List ℕ → K) (tol : K) :
    ∃ out, P.randomPointsArray shape draw = .ok out ∧ out.shape = [] ∧ P.containsArray out tol = .error .value := by
  obtain ⟨w, o, hw, ho, hr⟩ := poly_rows P [1] draw
  have hs : o.shape = [1, 1] := hr.1
  have hq : o.squeeze.shape = [] := by simp [squeeze, hs]
  refine ⟨o.squeeze, by simp only [Poly.randomPointsArray, h1, hw, ho, bind, Except.bind, pure, Except.pure, if_true], hq, ?_⟩
  simp [Poly.containsArray, ndim, hq, matmul, bind, Except.bind]

omit [LinearOrder K] in
theorem box_rows (b : Box K) (n : ℕ) (draw : List ℕ → K) : ∃ p q r,
    (NdArray.mk [n, 3] draw).zip (· * ·) (ofVec b.halfExtents) = .ok p ∧ (ofMatrix b.rotation).matmul p.T = .ok q ∧
    q.T.zip (· + ·) (ofVec b.center) = .ok r ∧ Rows r [n] 3 fun i => b.randomPoint fun k => draw (i ++ [(k : ℕ)]) := by
  have h0 : Rows (NdArray.mk [n, 3] draw) [n] 3 fun i k => draw (i ++ [(k : ℕ)]) := ⟨rfl, fun _ _ _ => rfl⟩
  obtain ⟨p, hp, hpr⟩ := zip_vec (· * ·) h0 b.halfExtents
  obtain ⟨q, hq, hqr⟩ := matmul_T hpr b.rotation
  obtain ⟨r, hr, hrr⟩ := zip_vec (· + ·) hqr b.center
  exact ⟨p, q, r, hp, hq, hr, hrr⟩

omit [LinearOrder K] in
/-- C98: `Box.random_points(shape)` has shape `shape + (3,)` unless one point is requested; the point at index `i` uses the
row of the draws whose number is the position of `i` in row-by-row order. -/
theorem C98_box (b : Box K) (shape : ShapeArg) (h0 : shape.toTuple ≠ []) (h1 : shape.toTuple ≠ [1]) (draw : List ℕ → K) :
    ∃ out, b.randomPointsArray shape draw = .ok out ∧
      Rows out shape.toTuple 3 fun i => b.randomPoint fun k => draw [ravel shape.toTuple i, (k : ℕ)] := by
  obtain ⟨p, q, r, hp, hq, hr, hrr⟩ := box_rows b shape.toTuple.prod draw
  obtain ⟨o, ho, hor⟩ := reshape_rows hrr (s := shape.toTuple) rfl
  refine ⟨o, ?_, hor⟩
  simp only [Box.randomPointsArray, h0, if_false, hp, hq, hr, h1, bind, Except.bind, pure, Except.pure]
  exact ho

omit [LinearOrder K] in
/-- C98: for a request of one point, as `1` or as `(1,)`, the axis of length one is dropped. -/
theorem C98_box_one (b : Box K) (shape : ShapeArg) (h1 : shape.toTuple = [1]) (draw : List ℕ → K) :
    ∃ out, b.randomPointsArray shape draw = .ok out ∧ Rows out [] 3 fun _ => b.randomPoint fun k => draw [0, (k : ℕ)] := by
  obtain ⟨p, q, r, hp, hq, hr, hrr⟩ := box_rows b 1 draw
  refine ⟨r.squeeze, ?_, squeeze_one (by omega) hrr⟩
  have hp1 : [1].prod = 1 := rfl
  simp only [Box.randomPointsArray, h1, if_true, hp1, hp, hq, hr, bind, Except.bind, pure, Except.pure]
  simp

/-- C98: the rows produced by `rejection_sample`, by `Box.random_points_on_surface` and `random_points_on_edges` and by
`Ellipsoid.random_points_on_surface` are put into the requested shape in order; nothing is lost when their number is
the product of the shape. -/
theorem C98_back {d : ℕ} (rows : List (Fin d → K)) (shape : ShapeArg) (h1 : shape.toTuple ≠ [1])
    (hn : rows.length = shape.toTuple.prod) : ∃ out, backToShape rows shape = .ok out ∧
      Rows out shape.toTuple d fun i => rows.getD (ravel shape.toTuple i) 0 := by
  have hr : Rows (ofMatrix (Matrix.of fun i : Fin rows.length => rows.get i)) [rows.length] d
      fun i => rows.getD (i.headD 0) 0 := by
    refine rows_ofMatrix _ _ fun i => ?_
    funext k
    simp [List.getElem?_eq_getElem i.2]
  obtain ⟨o, ho, hor⟩ := reshape_rows hr (s := shape.toTuple) hn.symm
  exact ⟨o, by simp only [backToShape, h1, if_false, ho], hor⟩

/-- C98: one row, requested as `1` or as `(1,)`, becomes a single point. -/
theorem C98_back_one {d : ℕ} (hd : d ≠ 1) (p : Fin d → K) (shape : ShapeArg) (h1 : shape.toTuple = [1]) :
    ∃ out, backToShape [p] shape = .ok out ∧ Rows out [] d fun _ => p := by
  have hr : Rows (ofMatrix (Matrix.of fun i : Fin [p].length => [p].get i)) [1] d fun _ => p := by
    refine rows_ofMatrix _ _ fun i => ?_
    funext k
    obtain ⟨i, hi⟩ := i
    have h0 : i = 0 := Nat.lt_one_iff.mp hi
    subst h0
    rfl
  exact ⟨_, by simp only [backToShape, h1, if_true]; rfl, squeeze_one hd hr⟩

end Field

/-- The array of points on the sphere, with the division written out, before squeezing. -/
theorem sphere_rows (s : List ℕ) (n : ℕ) (normal : List ℕ → ℝ) : ∃ r r' out,
    (NdArray.mk (s ++ [n]) normal).reduce (fun n g => Real.sqrt (∑ k ∈ Finset.range n, g k ^ 2)) s.length = .ok r ∧
    r.expandDims s.length = .ok r' ∧ (NdArray.mk (s ++ [n]) normal).zip (· / ·) r' = .ok out ∧
    Rows out s n fun i k => normal (i ++ [(k : ℕ)]) /
      Real.sqrt ((fun j : Fin n => normal (i ++ [(j : ℕ)])) ⬝ᵥ fun j : Fin n => normal (i ++ [(j : ℕ)])) := by
  obtain ⟨c, hc, hc'⟩ := reduce_last (fun n g => Real.sqrt (∑ k ∈ Finset.range n, g k ^ 2)) (a := ⟨s ++ [n], normal⟩)
    (s := s) (n := n) rfl
  obtain ⟨e, he, hes, he'⟩ := expand_last hc'
  obtain ⟨o, ho, hos, ho'⟩ := zip_one (· / ·) (a := ⟨s ++ [n], normal⟩) (b := e) (s := s) (n := n) rfl hes
  have hl : (NdArray.mk (s ++ [n]) normal).ndim - 1 = s.length := by simp [ndim]
  rw [hl] at hc
  refine ⟨c, e, o, hc, he, ho, hos, fun i hi k => ?_⟩
  rw [ho' i hi k, he' i hi 0, Finset.sum_range]
  simp only [dotProduct, sq]

theorem hypersphere_ok {dim : ℕ} {X p : Fin (dim + 1) → ℝ} (h : hyperspherePoint dim X = .ok p) :
    p = fun k => X k / Real.sqrt (X ⬝ᵥ X) := by
  unfold hyperspherePoint pyAssert at h
  split at h
  · exact (vdiv_ok h).2
  · cases h

/-- C98: `random_points_on_hypersphere(shape, dim)` has shape `shape + (dim + 1,)` unless one point is requested … -/
theorem C98_hypersphere (shape : ShapeArg) (h1 : shape.toTuple ≠ [1]) (dim : ℕ) (hd : 1 ≤ dim) (normal : List ℕ → ℝ) :
    ∃ out, hypersphereArray shape dim normal = .ok out ∧
      Sampled out shape.toTuple (dim + 1) fun i => hyperspherePoint dim fun k => normal (i ++ [(k : ℕ)]) := by
  obtain ⟨r, r', o, hr, hr', ho, hos, h⟩ := sphere_rows shape.toTuple (dim + 1) normal
  refine ⟨o, ?_, hos, fun i hi p hp k => by rw [h i hi k, hypersphere_ok hp]⟩
  simp [hypersphereArray, pyAssert, hd, ndim, hr, hr', ho, h1, bind, Except.bind, pure, Except.pure]

/-- C98: … which is returned without the axis of length one, both for `1` and for `(1,)`. -/
theorem C98_hypersphere_one (shape : ShapeArg) (h1 : shape.toTuple = [1]) (dim : ℕ) (hd : 1 ≤ dim) (normal : List ℕ → ℝ) :
    ∃ out, hypersphereArray shape dim normal = .ok out ∧
      Sampled out [] (dim + 1) fun _ => hyperspherePoint dim fun k => normal [0, (k : ℕ)] := by
  obtain ⟨r, r', o, hr, hr', ho, hor⟩ := sphere_rows [1] (dim + 1) normal
  have hsq := squeeze_one (by omega) hor
  refine ⟨o.squeeze, ?_, hsq.1, fun i hi p hp k => by rw [hsq.2 i hi k, hypersphere_ok hp]; rfl⟩
  simp only [List.length_singleton, List.singleton_append] at hr hr' ho
  simp [hypersphereArray, pyAssert, hd, ndim, h1, hr, hr', ho, bind, Except.bind, pure, Except.pure]

theorem hypersphere_rows (shape : ShapeArg) (h1 : shape.toTuple ≠ [1]) (dim : ℕ) (hd : 1 ≤ dim) (normal : List ℕ → ℝ) :
    ∃ out, hypersphereArray shape dim normal = .ok out ∧
      Rows out shape.toTuple (dim + 1) fun i k => normal (i ++ [(k : ℕ)]) /
      Real.sqrt ((fun j : Fin (dim + 1) => normal (i ++ [(j : ℕ)])) ⬝ᵥ fun j : Fin (dim + 1) => normal (i ++ [(j : ℕ)])) := by
  obtain ⟨r, r', o, hr, hr', ho, hor⟩ := sphere_rows shape.toTuple (dim + 1) normal
  refine ⟨o, ?_, hor⟩
  simp [hypersphereArray, pyAssert, hd, ndim, hr, hr', ho, h1, bind, Except.bind, pure, Except.pure]

theorem hypersphere_rows_one (shape : ShapeArg) (h1 : shape.toTuple = [1]) (dim : ℕ) (hd : 1 ≤ dim) (normal : List ℕ → ℝ) :
    ∃ out, hypersphereArray shape dim normal = .ok out ∧
      Rows out [] (dim + 1) fun _ k => normal [0, (k : ℕ)] /
      Real.sqrt ((fun j : Fin (dim + 1) => normal [0, (j : ℕ)]) ⬝ᵥ fun j : Fin (dim + 1) => normal [0, (j : ℕ)]) := by
  obtain ⟨r, r', o, hr, hr', ho, hor⟩ := sphere_rows [1] (dim + 1) normal
  have hsq := squeeze_one (by omega) hor
  refine ⟨o.squeeze, ?_, hsq⟩
  simp only [List.length_singleton, List.singleton_append] at hr hr' ho
  simp [hypersphereArray, pyAssert, hd, ndim, h1, hr, hr', ho, bind, Except.bind, pure, Except.pure]

/-- One number for each vector, times the vector, where the array of vectors lacks a leading axis of length one. -/
theorem one_zip_missing {α β γ : Type} (f : α → β → γ) {a : NdArray α} {b : NdArray β} {n : ℕ} (hn : n ≠ 1)
    {r : List ℕ → Fin n → β} {x : α} (ha : a.shape = [1, 1]) (hx : a.data [0, 0] = x) (hb : Rows b [] n r) :
    ∃ c, a.zip f b = .ok c ∧ Rows c [1] n fun _ k => f x (r [] k) := by
  have hb1 : b.shape = [n] := hb.1
  refine ⟨_, by rw [zip, ha, hb1]; simp [broadcastRev, Ne.symm hn, bind, Except.bind, pure, Except.pure]; rfl, by simp,
    fun i hi k => ?_⟩
  cases hi with
  | cons hk ht =>
    cases ht
    rename_i i
    have h0 : i = 0 := by omega
    subst h0
    have := hb.2 [] List.Forall₂.nil k
    simp only [List.nil_append] at this
    have e1 : clip [1, 1] ([0] ++ [(k : ℕ)]) = [0, 0] := by simp [clip]
    have e2 : clip b.shape ([0] ++ [(k : ℕ)]) = [(k : ℕ)] := by rw [hb1]; exact clip_vec n [0] k
    rw [hb1] at e2
    simp only [ha, e1, e2, hx, this]

theorem ball_ok {m : ℕ} {X p : Fin (m + 1) → ℝ} {c : ℝ} (h : ballPoint (m + 1) X c = .ok p) :
    p = fun k => c ^ (1 / ((m + 1 : ℕ) : ℝ)) * (X k / Real.sqrt (X ⬝ᵥ X)) := by
  simp only [ballPoint, bind, Except.bind] at h
  split at h
  · cases h
  · rename_i q hq
    rw [← Except.ok.inj h, hypersphere_ok hq]
    rfl

/-- The value of the ball sampler at draws `X`, `c` where no divisor is zero. -/
noncomputable def ballEntry {d : ℕ} (X : Fin d → ℝ) (c : ℝ) : Fin d → ℝ :=
  fun k => c ^ (1 / (d : ℝ)) * (X k / Real.sqrt (X ⬝ᵥ X))

theorem ball_value : ∀ {d : ℕ} {X p : Fin d → ℝ} {c : ℝ}, ballPoint d X c = .ok p → p = ballEntry X c
  | 0, _, _, _, h => by cases h
  | _ + 1, _, _, _, h => ball_ok h

theorem shape_cases (shape : ShapeArg) : shape.isOne = true ↔ shape = .int 1 := by
  cases shape <;> simp [ShapeArg.isOne]

theorem ball_rows (shape : ShapeArg) (h1 : shape ≠ .int 1) (d : ℕ) (hd : 2 ≤ d) (normal uniform : List ℕ → ℝ) :
    ∃ out, ballArray shape d normal uniform = .ok out ∧
      Rows out shape.toTuple d fun i => ballEntry (fun k => normal (i ++ [(k : ℕ)])) (uniform i) := by
  have hone : shape.isOne = false := by
    rw [← Bool.not_eq_true, shape_cases]; exact h1
  obtain ⟨m, rfl⟩ : ∃ m, d = m + 1 := ⟨d - 1, by omega⟩
  have hu : Entries (NdArray.mk shape.toTuple uniform) shape.toTuple uniform := ⟨rfl, fun _ _ => rfl⟩
  obtain ⟨c, hc, hcs, hcd⟩ := expand_last hu
  by_cases ht : shape.toTuple = [1]
  · obtain ⟨s, hs, hsr⟩ := hypersphere_rows_one shape ht m (by omega) normal
    have hl : s.ndim - 1 = 0 := by simp [ndim, hsr.1]
    have hu' : Entries (NdArray.mk [1] uniform) [1] uniform := ⟨rfl, fun _ _ => rfl⟩
    -- here the new axis comes first, which makes no difference for an array of shape `(1,)`
    have hc0 : (NdArray.mk [1] uniform).expandDims 0 = .ok ⟨[1, 1], fun i => uniform (i.eraseIdx 0)⟩ := by
      simp [expandDims, ndim]
    obtain ⟨o, ho, hor⟩ := one_zip_missing (· * ·) (n := m + 1) (by omega)
      (a := NdArray.map (fun x => x ^ (1 / ((m + 1 : ℕ) : ℝ))) ⟨[1, 1], fun i => uniform (i.eraseIdx 0)⟩) (b := s)
      (x := uniform [0] ^ (1 / ((m + 1 : ℕ) : ℝ))) rfl rfl hsr
    refine ⟨o, ?_, ?_⟩
    · simp only [ballArray, pyAssert, Nat.add_sub_cancel, hs, hl, ht, hc0, hone, bind, Except.bind, pure, Except.pure]
      simp only [show decide (1 ≤ m + 1) = true by simp, if_true]
      rw [ho]
      simp
    · rw [ht]
      refine ⟨hor.1, fun i hi k => ?_⟩
      have : i = [0] := by
        cases hi with
        | cons hk h' => cases h'; congr 1; omega
      subst this
      exact hor.2 [0] hi k
  · obtain ⟨s, hs, hsr⟩ := hypersphere_rows shape ht m (by omega) normal
    have hl : s.ndim - 1 = shape.toTuple.length := by simp [ndim, hsr.1]
    obtain ⟨o, ho, hos, hod⟩ := one_zip (· * ·) (a := c.map fun x => x ^ (1 / ((m + 1 : ℕ) : ℝ))) (b := s)
      (s := shape.toTuple) (n := m + 1) hcs hsr.1
    refine ⟨o, ?_, hos, fun i hi k => ?_⟩
    · simp only [ballArray, pyAssert, Nat.add_sub_cancel, hs, hl, hc, hone, bind, Except.bind, pure, Except.pure]
      simp only [show decide (1 ≤ m + 1) = true by simp, if_true]
      rw [ho]
      simp
    · rw [hod i hi k, hsr.2 i hi k]
      simp only [NdArray.map]
      rw [hcd i hi 0]
      rfl

theorem ball_rows_one (d : ℕ) (hd : 2 ≤ d) (normal uniform : List ℕ → ℝ) :
    ∃ out, ballArray (.int 1) d normal uniform = .ok out ∧
      Rows out [] d fun _ => ballEntry (fun k => normal [0, (k : ℕ)]) (uniform [0]) := by
  obtain ⟨m, rfl⟩ : ∃ m, d = m + 1 := ⟨d - 1, by omega⟩
  obtain ⟨s, hs, hsr⟩ := hypersphere_rows_one (.int 1) rfl m (by omega) normal
  have hl : s.ndim - 1 = 0 := by simp [ndim, hsr.1]
  have hc0 : (NdArray.mk [1] uniform).expandDims 0 = .ok ⟨[1, 1], fun i => uniform (i.eraseIdx 0)⟩ := by
    simp [expandDims, ndim]
  obtain ⟨o, ho, hor⟩ := one_zip_missing (· * ·) (n := m + 1) (by omega)
    (a := NdArray.map (fun x => x ^ (1 / ((m + 1 : ℕ) : ℝ))) ⟨[1, 1], fun i => uniform (i.eraseIdx 0)⟩) (b := s)
    (x := uniform [0] ^ (1 / ((m + 1 : ℕ) : ℝ))) rfl rfl hsr
  refine ⟨o.squeeze, ?_, squeeze_one (by omega) hor⟩
  simp only [ballArray, pyAssert, Nat.add_sub_cancel, hs, hl, ShapeArg.toTuple, ShapeArg.isOne, hc0, bind, Except.bind, pure,
    Except.pure]
  simp only [show decide (1 ≤ m + 1) = true by simp, if_true]
  rw [ho]
  simp

/-- C98: `random_points_in_ball(shape, dim)` has shape `shape + (dim,)` for every request other than the integer 1, also
for `(1,)` … -/
theorem C98_ball (shape : ShapeArg) (h1 : shape ≠ .int 1) (d : ℕ) (hd : 2 ≤ d) (normal uniform : List ℕ → ℝ) :
    ∃ out, ballArray shape d normal uniform = .ok out ∧
      Sampled out shape.toTuple d fun i => ballPoint d (fun k => normal (i ++ [(k : ℕ)])) (uniform i) := by
  obtain ⟨o, ho, hs, h⟩ := ball_rows shape h1 d hd normal uniform
  exact ⟨o, ho, hs, fun i hi p hp k => by rw [h i hi k, ball_value hp]⟩

/-- C98: … and returns a single point for the integer 1. -/
theorem C98_ball_one (d : ℕ) (hd : 2 ≤ d) (normal uniform : List ℕ → ℝ) :
    ∃ out, ballArray (.int 1) d normal uniform = .ok out ∧
      Sampled out [] d fun _ => ballPoint d (fun k => normal [0, (k : ℕ)]) (uniform [0]) := by
  obtain ⟨o, ho, hs, h⟩ := ball_rows_one d hd normal uniform
  exact ⟨o, ho, hs, fun i hi p hp k => by rw [h i hi k, ball_value hp]⟩

/-- C98: in dimension 1 the assertion of `random_points_on_hypersphere` fails for every requested shape. -/
theorem C98_ball_line (shape : ShapeArg) (d : ℕ) (hd : d ≤ 1) (normal uniform : List ℕ → ℝ) :
    ballArray shape d normal uniform = .error .assertion := by
  interval_cases d <;> simp [ballArray, hypersphereArray, pyAssert, bind, Except.bind]

theorem ellipsoid_ok {d : ℕ} {e : Ellipsoid ℝ d} {X p : Fin d → ℝ} {c : ℝ} (h : e.randomPoints X c = .ok p) :
    p = e.randomPoint (ballEntry X c) := by
  simp only [Ellipsoid.randomPoints, bind, Except.bind] at h
  split at h
  · cases h
  · rename_i q hq
    rw [← Except.ok.inj h, ball_value hq]

theorem ellipsoid_tail {d : ℕ} (e : Ellipsoid ℝ d) {X : NdArray ℝ} {s : List ℕ} {r : List ℕ → Fin d → ℝ} (hX : Rows X s d r) :
    ∃ Y Z, X.matmul (ofMatrix (e.rotation * Matrix.diagonal e.halfExtents * e.rotationᵀ)) = .ok Y ∧
      Y.zip (· + ·) (ofVec e.center) = .ok Z ∧ Rows Z s d fun i => e.randomPoint (r i) := by
  obtain ⟨Y, hY, hYr⟩ := matmul_mat hX (e.rotation * Matrix.diagonal e.halfExtents * e.rotationᵀ)
  obtain ⟨Z, hZ, hZr⟩ := zip_vec (· + ·) hYr e.center
  exact ⟨Y, Z, hY, hZ, hZr⟩

/-- C98: `Ellipsoid.random_points(shape)` has shape `shape + (d,)` for every request other than the integer 1, also for
`(1,)` … -/
theorem C98_ellipsoid {d : ℕ} (hd : 2 ≤ d) (e : Ellipsoid ℝ d) (shape : ShapeArg) (h1 : shape ≠ .int 1)
    (normal uniform : List ℕ → ℝ) : ∃ out, e.randomPointsArray shape normal uniform = .ok out ∧
      Sampled out shape.toTuple d fun i => e.randomPoints (fun k => normal (i ++ [(k : ℕ)])) (uniform i) := by
  obtain ⟨X, hX, hXr⟩ := ball_rows shape h1 d hd normal uniform
  obtain ⟨Y, Z, hY, hZ, hZs, hZr⟩ := ellipsoid_tail e hXr
  refine ⟨Z, by simp [Ellipsoid.randomPointsArray, hX, hY, hZ, bind, Except.bind], hZs, fun i hi p hp k => ?_⟩
  rw [hZr i hi k, ellipsoid_ok hp]

/-- C98: … and is a single point for the integer 1. -/
theorem C98_ellipsoid_one {d : ℕ} (hd : 2 ≤ d) (e : Ellipsoid ℝ d) (normal uniform : List ℕ → ℝ) :
    ∃ out, e.randomPointsArray (.int 1) normal uniform = .ok out ∧
      Sampled out [] d fun _ => e.randomPoints (fun k => normal [0, (k : ℕ)]) (uniform [0]) := by
  obtain ⟨X, hX, hXr⟩ := ball_rows_one d hd normal uniform
  obtain ⟨Y, Z, hY, hZ, hZs, hZr⟩ := ellipsoid_tail e hXr
  refine ⟨Z, by simp [Ellipsoid.randomPointsArray, hX, hY, hZ, bind, Except.bind], hZs, fun i hi p hp k => ?_⟩
  rw [hZr i hi k, ellipsoid_ok hp]

theorem concat_rows {α : Type} {a b : NdArray α} {s : List ℕ} {m : ℕ} {r : List ℕ → Fin m → α} (ha : Rows a s m r)
    {u : List ℕ → α} (hb : b.shape = s ++ [1]) (hu : ∀ i, InShape i s → b.data (i ++ [0]) = u i) :
    ∃ c, a.concatLast b = .ok c ∧ Rows c s (m + 1) fun i => Fin.snoc (α := fun _ => α) (r i) (u i) := by
  refine ⟨_, by rw [concatLast, ha.1, hb]; simp only [List.getLast?_concat, List.dropLast_concat, if_true]; rfl,
    rfl, fun i hi k => ?_⟩
  simp only [List.getLastD_concat, List.dropLast_concat]
  refine Fin.lastCases ?_ (fun j => ?_) k
  · simp [hu i hi]
  · simp [ha.2 i hi j]

theorem cylinder_tail (c : Cylinder ℝ) {P : NdArray ℝ} {s : List ℕ} {r : List ℕ → Fin 3 → ℝ} (hP : Rows P s 3 r) :
    ∃ Q Z, P.matmul (ofMatrix c.rotationᵀ) = .ok Q ∧ Q.zip (· + ·) (ofVec c.center) = .ok Z ∧
      Rows Z s 3 fun i => r i ᵥ* c.rotationᵀ + c.center := by
  obtain ⟨Y, hY, hYr⟩ := matmul_mat hP c.rotationᵀ
  obtain ⟨Z, hZ, hZr⟩ := zip_vec (· + ·) hYr c.center
  exact ⟨Y, Z, hY, hZ, hZr⟩

theorem cylinder_ok {c : Cylinder ℝ} {u w : ℝ} {X : Fin 2 → ℝ} {p : Fin 3 → ℝ} (h : c.randomPoints u X w = .ok p) :
    p = c.randomPoint u (ballEntry X w) := by
  simp only [Cylinder.randomPoints, bind, Except.bind] at h
  split at h
  · cases h
  · rename_i q hq
    rw [← Except.ok.inj h, ball_value hq]

theorem snoc_randomPoint (c : Cylinder ℝ) (u : ℝ) (x : Fin 2 → ℝ) :
    (Fin.snoc (α := fun _ => ℝ) (fun k => c.radius * x k) (c.length * u) : Fin 3 → ℝ) ᵥ* c.rotationᵀ + c.center =
      c.randomPoint u x := by
  unfold Cylinder.randomPoint
  congr 2
  funext k
  fin_cases k <;> rfl

/-- C98: `Cylinder.random_points(shape)` has shape `shape + (3,)` for every request other than the integer 1, also for
`(1,)` … -/
theorem C98_cylinder (c : Cylinder ℝ) (shape : ShapeArg) (h1 : shape ≠ .int 1) (height normal uniform : List ℕ → ℝ) :
    ∃ out, c.randomPointsArray shape height normal uniform = .ok out ∧
      Sampled out shape.toTuple 3 fun i => c.randomPoints (height i) (fun k => normal (i ++ [(k : ℕ)])) (uniform i) := by
  have hone : shape.isOne = false := by
    rw [← Bool.not_eq_true, shape_cases]; exact h1
  obtain ⟨X, hX, hXr⟩ := ball_rows shape h1 2 le_rfl normal uniform
  have hz : Entries ((NdArray.mk shape.toTuple height).map fun u => c.length * u) shape.toTuple fun i => c.length * height i :=
    ⟨rfl, fun _ _ => rfl⟩
  obtain ⟨Z, hZ, hZs, hZd⟩ := expand_last hz
  obtain ⟨P, hP, hPr⟩ := concat_rows (map_rows (fun x => c.radius * x) hXr) hZs (fun i hi => hZd i hi 0)
  obtain ⟨Q, O, hQ, hO, hOs, hOr⟩ := cylinder_tail c hPr
  refine ⟨O, ?_, hOs, fun i hi p hp k => ?_⟩
  · have hl : ((NdArray.mk shape.toTuple height).map fun u => c.length * u).ndim = shape.toTuple.length := rfl
    simp [Cylinder.randomPointsArray, hX, hone, hl, hZ, hP, hQ, hO, bind, Except.bind]
  · rw [hOr i hi k, cylinder_ok hp, ← snoc_randomPoint]

/-- C98: … and is a single point for the integer 1, for which the heights have no axis of their own but are concatenated
as they are. -/
theorem C98_cylinder_one (c : Cylinder ℝ) (height normal uniform : List ℕ → ℝ) :
    ∃ out, c.randomPointsArray (.int 1) height normal uniform = .ok out ∧
      Sampled out [] 3 fun _ => c.randomPoints (height [0]) (fun k => normal [0, (k : ℕ)]) (uniform [0]) := by
  obtain ⟨X, hX, hXr⟩ := ball_rows_one 2 le_rfl normal uniform
  obtain ⟨P, hP, hPr⟩ := concat_rows (b := (NdArray.mk [1] height).map fun u => c.length * u)
    (u := fun _ => c.length * height [0]) (map_rows (fun x => c.radius * x) hXr) rfl (fun i hi => by cases hi; rfl)
  obtain ⟨Q, O, hQ, hO, hOs, hOr⟩ := cylinder_tail c hPr
  refine ⟨O, ?_, hOs, fun i hi p hp k => ?_⟩
  · simp [Cylinder.randomPointsArray, hX, ShapeArg.isOne, ShapeArg.toTuple, hP, hQ, hO, bind, Except.bind, pure, Except.pure]
  · rw [hOr i hi k, cylinder_ok hp, ← snoc_randomPoint]

theorem ballPoint_ne {d : ℕ} (hd : 2 ≤ d) {X : Fin d → ℝ} (hX : X ≠ 0) (c : ℝ) : ∃ p, ballPoint d X c = .ok p := by
  obtain ⟨m, rfl⟩ : ∃ m, d = m + 1 := ⟨d - 1, by omega⟩
  have h0 : Real.sqrt (X ⬝ᵥ X) ≠ 0 := by
    rw [Real.sqrt_ne_zero (show 0 ≤ X ⬝ᵥ X from Finset.sum_nonneg fun i _ => mul_self_nonneg _)]
    exact fun h => hX (dotProduct_self_eq_zero.mp h)
  have hm : decide (1 ≤ m) = true := by simp; omega
  exact ⟨_, by simp only [ballPoint, hyperspherePoint, pyAssert, hm, if_true, vdiv, h0, if_false, bind, Except.bind, pure,
    Except.pure]; rfl⟩

/-- C98: every point of the array `Box.random_points(shape)` lies in the box. -/
theorem C98_box_inside (b : Box ℝ) (hb : ∀ i, 0 ≤ b.halfExtents i) (shape : ShapeArg) (h0 : shape.toTuple ≠ [])
    (h1 : shape.toTuple ≠ [1]) (draw : List ℕ → ℝ) (hu : ∀ i, |draw i| ≤ 1) :
    ∃ out, b.randomPointsArray shape draw = .ok out ∧
      AllIn out shape.toTuple (Spec.box b.halfExtents b.rotation b.center) := by
  obtain ⟨o, ho, hs, h⟩ := C98_box b shape h0 h1 draw
  refine ⟨o, ho, hs, fun i hi => ?_⟩
  rw [funext (h i hi)]
  exact C41_box b hb _ fun k => hu _

/-- C98: every point of the array `Ellipsoid.random_points(shape)` lies in the ellipsoid, if no normal draw is the zero
vector. -/
theorem C98_ellipsoid_inside {d : ℕ} (hd : 2 ≤ d) (e : Ellipsoid ℝ d) (hR : Spec.Orthogonal e.rotation) (shape : ShapeArg)
    (h1 : shape ≠ .int 1) (normal uniform : List ℕ → ℝ)
    (hn : ∀ i, InShape i shape.toTuple → (fun k : Fin d => normal (i ++ [(k : ℕ)])) ≠ 0)
    (hu : ∀ i, 0 ≤ uniform i ∧ uniform i ≤ 1) : ∃ out, e.randomPointsArray shape normal uniform = .ok out ∧
      AllIn out shape.toTuple (Spec.ellipsoid e.halfExtents e.rotation e.center) := by
  obtain ⟨o, ho, hs, h⟩ := C98_ellipsoid hd e shape h1 normal uniform
  refine ⟨o, ho, hs, fun i hi => ?_⟩
  obtain ⟨x, hx⟩ := ballPoint_ne hd (hn i hi) (uniform i)
  have hp : e.randomPoints (fun k : Fin d => normal (i ++ [(k : ℕ)])) (uniform i) = .ok (e.randomPoint x) := by
    simp only [Ellipsoid.randomPoints, hx, bind, Except.bind, pure, Except.pure]
  rw [funext (h i hi _ hp)]
  exact C41_ellipsoid e hR _ _ (hu i).1 (hu i).2 _ hp

/-- C98: every point of the array `Cylinder.random_points(shape)` lies in the cylinder, if no normal draw is the zero
vector. -/
theorem C98_cylinder_inside (c : Cylinder ℝ) (hL : 0 ≤ c.length) (shape : ShapeArg) (h1 : shape ≠ .int 1)
    (height normal uniform : List ℕ → ℝ)
    (hn : ∀ i, InShape i shape.toTuple → (fun k : Fin 2 => normal (i ++ [(k : ℕ)])) ≠ 0)
    (hu : ∀ i, 0 ≤ uniform i ∧ uniform i ≤ 1) (hh : ∀ i, |height i| ≤ 1 / 2) :
    ∃ out, c.randomPointsArray shape height normal uniform = .ok out ∧
      AllIn out shape.toTuple (Spec.cylinder c.length c.radius c.rotation c.center) := by
  obtain ⟨o, ho, hs, h⟩ := C98_cylinder c shape h1 height normal uniform
  refine ⟨o, ho, hs, fun i hi => ?_⟩
  obtain ⟨x, hx⟩ := ballPoint_ne le_rfl (hn i hi) (uniform i)
  have hp : c.randomPoints (height i) (fun k : Fin 2 => normal (i ++ [(k : ℕ)])) (uniform i) = .ok (c.randomPoint (height i) x) := by
    simp only [Cylinder.randomPoints, hx, bind, Except.bind, pure, Except.pure]
  rw [funext (h i hi _ hp)]
  exact C41_cylinder c hL _ (hh i) _ _ (hu i).1 (hu i).2 _ hp

/-- C98: every point of the array `ConvexPolyhedron.random_points(shape)` lies in the hull of the vertices, if the weights
drawn for it are nonnegative and do not all vanish. -/
theorem C98_poly_inside {d : ℕ} (P : Poly ℝ d) (shape : ShapeArg) (h1 : shape.toTuple ≠ [1]) (draw : List ℕ → ℝ)
    (hw : ∀ i, 0 ≤ draw i)
    (hn : ∀ i, InShape i shape.toTuple → ∑ k : Fin P.vertices.length, draw (i ++ [(k : ℕ)]) ≠ 0) :
    ∃ out, P.randomPointsArray shape draw = .ok out ∧ AllIn out shape.toTuple (Spec.hull P.vertices) := by
  obtain ⟨o, ho, hs, h⟩ := C98_poly P shape h1 draw
  refine ⟨o, ho, hs, fun i hi => ?_⟩
  have hp : P.randomPoints (fun k => draw (i ++ [(k : ℕ)])) =
      .ok (P.randomPoint fun k => draw (i ++ [(k : ℕ)]) / ∑ j : Fin P.vertices.length, draw (i ++ [(j : ℕ)])) := by
    simp only [Poly.randomPoints, randomWeightVector, vdiv, hn i hi, if_false, bind, Except.bind, pure, Except.pure]
  rw [funext (h i hi _ hp)]
  exact C41_poly P _ (fun k => hw _) _ hp

/-- C98: the request `(1,)` is answered with shape `(3,)` by a box and with shape `(1, 3)` by an ellipsoid and a cylinder. -/
theorem C98_one_tuple (b : Box ℝ) (e : Ellipsoid ℝ 3) (c : Cylinder ℝ) (draw height normal uniform : List ℕ → ℝ) :
    (∃ out, b.randomPointsArray (.tuple [1]) draw = .ok out ∧ out.shape = [3]) ∧
    (∃ out, e.randomPointsArray (.tuple [1]) normal uniform = .ok out ∧ out.shape = [1, 3]) ∧
    ∃ out, c.randomPointsArray (.tuple [1]) height normal uniform = .ok out ∧ out.shape = [1, 3] := by
  obtain ⟨o1, h1, h1'⟩ := C98_box_one b (.tuple [1]) rfl draw
  obtain ⟨o2, h2, h2'⟩ := C98_ellipsoid (by omega) e (.tuple [1]) (by simp) normal uniform
  obtain ⟨o3, h3, h3'⟩ := C98_cylinder c (.tuple [1]) (by simp) height normal uniform
  exact ⟨⟨o1, h1, h1'.1⟩, ⟨o2, h2, h2'.1⟩, ⟨o3, h3, h3'.1⟩⟩

/-- Six points of the cube in an array of shape `(2, 3)`. -/
example : ∃ out, (⟨1, 1, 0⟩ : Box ℚ).randomPointsArray (.tuple [2, 3]) (fun i => (i.headD 0 : ℚ) / 6) = .ok out ∧
    out.shape = [2, 3, 3] ∧ out.data [1, 1, 0] = 4 / 6 := by
  obtain ⟨o, ho, hs, h⟩ := C98_box (⟨1, 1, 0⟩ : Box ℚ) (.tuple [2, 3]) (by simp [ShapeArg.toTuple]) (by simp [ShapeArg.toTuple])
    (fun i => (i.headD 0 : ℚ) / 6)
  refine ⟨o, ho, hs, (h [1, 1] (.cons (by omega) (.cons (by omega) .nil)) 0).trans ?_⟩
  simp [Box.randomPoint, ravel, ShapeArg.toTuple]

/-- Draws that meet the hypotheses of the theorems on ellipsoids and cylinders. -/
example : ∃ out, (⟨1, 1, 0⟩ : Ellipsoid ℝ 3).randomPointsArray (.int 5) (fun _ => 1) (fun _ => 1 / 2) = .ok out ∧
    AllIn out [5] (Spec.ellipsoid (1 : Fin 3 → ℝ) 1 0) :=
  C98_ellipsoid_inside (by omega) (⟨1, 1, 0⟩ : Ellipsoid ℝ 3) (by simp [Spec.Orthogonal]) (.int 5) (by simp) _ _
    (fun _ _ h => one_ne_zero (congrFun h 0)) (fun _ => ⟨by norm_num, by norm_num⟩)

end Rigeo
