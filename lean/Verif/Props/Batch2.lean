import Verif.Lemmas.NdArray
import Verif.Model.Batch

/-!
# C99: the membership tests on arrays of points

For one point and for a two-dimensional array of points, the array programs agree with the one-point tests of the
model. Arrays with more axes are refused by ellipsoids, cylinders, capsules and `Box.on_surface`, but polyhedra (hence
boxes) return an array that has nothing to do with the points one by one.
-/

namespace Rigeo

open Matrix NdArray Spec

variable {K : Type} [Field K] [LinearOrder K]

theorem faces_all {d : ℕ} (P : Poly K d) (p : Fin d → K) (tol : K) :
    decide (∀ k : Fin P.faceForm.faces.length, decide ((P.faceForm.faces.get k).1 ⬝ᵥ p ≤ (P.faceForm.faces.get k).2 + tol) = true) =
      P.contains p tol := by
  rw [Bool.eq_iff_iff, decide_eq_true_iff, Poly.contains, List.all_eq_true]
  constructor
  · intro h ab hab
    obtain ⟨k, hk⟩ := List.mem_iff_get.mp hab
    rw [← hk]
    exact h k
  · intro h k
    exact h _ (List.get_mem _ _)

/-- The array of comparisons `points @ A.T <= b + tol`. -/
theorem poly_compare {d : ℕ} (P : Poly K d) (tol : K) {points : NdArray K} {s : List ℕ} {r : List ℕ → Fin d → K}
    (hp : Rows points s d r) : ∃ x c,
    points.matmul (ofMatrix (Matrix.of fun i : Fin P.faceForm.faces.length => (P.faceForm.faces.get i).1)).T = .ok x ∧
    x.zip (fun x y => decide (x ≤ y)) ((ofVec fun i : Fin P.faceForm.faces.length => (P.faceForm.faces.get i).2).map (· + tol)) =
      .ok c ∧
    Rows c s P.faceForm.faces.length fun i k =>
      decide ((P.faceForm.faces.get k).1 ⬝ᵥ r i ≤ (P.faceForm.faces.get k).2 + tol) := by
  obtain ⟨x, hx, hxr⟩ := matmul_matT hp (Matrix.of fun i : Fin P.faceForm.faces.length => (P.faceForm.faces.get i).1)
  obtain ⟨c, hc, hcs, hcr⟩ := zip_vec (fun (x y : K) => decide (x ≤ y + tol)) hxr
    (fun i : Fin P.faceForm.faces.length => (P.faceForm.faces.get i).2)
  exact ⟨x, c, hx, hc, hcs, hcr⟩

/-- C99: `ConvexPolyhedron.contains` on one point or a sequence of points tests every point by itself; the result has one
entry per point. -/
theorem C99_poly {d : ℕ} (P : Poly K d) (tol : K) {points : NdArray K} {s : List ℕ} (hs : Spec.Documented s)
    {r : List ℕ → Fin d → K} (hp : Rows points s d r) :
    ∃ out, P.containsArray points tol = .ok out ∧ Entries out s fun i => P.contains (r i) tol := by
  obtain rfl | ⟨n, rfl⟩ := hs
  · have h1 : points.ndim = 1 := by simp [ndim, hp.1]
    obtain ⟨x, hx, hxr⟩ := matmul_vec hp (Matrix.of fun i : Fin P.faceForm.faces.length => (P.faceForm.faces.get i).1)
    obtain ⟨c, hc, hcs, hcr⟩ := zip_vec (fun (x y : K) => decide (x ≤ y + tol)) hxr
      (fun i : Fin P.faceForm.faces.length => (P.faceForm.faces.get i).2)
    obtain ⟨o, ho, hos, hor⟩ := reduce_last NdArray.all (a := c) (s := []) hcs
    have hl : c.ndim - 1 = 0 := by simp [ndim, hcs]
    rw [hl] at ho
    refine ⟨o, ?_, hos, fun i hi => ?_⟩
    · simp only [Poly.containsArray, h1, if_true, hx, bind, Except.bind]
      have hc' : x.zip (fun x y => decide (x ≤ y))
          ((ofVec fun i : Fin P.faceForm.faces.length => (P.faceForm.faces.get i).2).map (· + tol)) = .ok c := hc
      rw [hc']
      exact ho
    · rw [hor i hi]
      simp only [← faces_all]
      refine (all_eq _).trans (decide_eq_decide.mpr (forall_congr' fun k => ?_))
      have := hcr i hi k
      cases hi
      rw [this]
      rfl
  · have h1 : points.ndim ≠ 1 := by simp [ndim, hp.1]
    obtain ⟨x, c, hx, hc, hcr⟩ := poly_compare P tol hp
    obtain ⟨o, ho, hor⟩ := reduce_rows NdArray.all (fun v => decide (∀ k, v k = true)) (fun g => all_eq g) hcr
    refine ⟨o, ?_, hor.1, fun i hi => ?_⟩
    · simp only [Poly.containsArray, h1, if_false, hx, hc, ho, bind, Except.bind]
    · rw [hor.2 i hi]
      exact faces_all P (r i) tol

/-- C99: on an array of shape `(m, n, d)`, such as `random_points((m, n))` returns, `ConvexPolyhedron.contains` does not
give one answer per point. The result has shape `(m, number of faces)`, and the entry `(i, f)` says whether all the `n`
points of row `i` satisfy the inequality of face `f`. No error is raised. -/
theorem C99_poly_three_axes {d : ℕ} (P : Poly K d) (tol : K) {points : NdArray K} {m n : ℕ} {r : List ℕ → Fin d → K}
    (hp : Rows points [m, n] d r) : ∃ out, P.containsArray points tol = .ok out ∧ out.shape = [m, P.faceForm.faces.length] ∧
      ∀ (i : Fin m) (f : Fin P.faceForm.faces.length), out.data [(i : ℕ), (f : ℕ)] = true ↔
        ∀ j : Fin n, (P.faceForm.faces.get f).1 ⬝ᵥ r [(i : ℕ), (j : ℕ)] ≤ (P.faceForm.faces.get f).2 + tol := by
  have h1 : points.ndim ≠ 1 := by simp [ndim, hp.1]
  obtain ⟨x, c, hx, hc, hcs, hcr⟩ := poly_compare P tol hp
  have hcs' : c.shape = [m, n, P.faceForm.faces.length] := hcs
  refine ⟨⟨[m, P.faceForm.faces.length], fun i => NdArray.all n fun k => c.data (i.insertIdx 1 k)⟩, ?_, rfl, fun i f => ?_⟩
  · simp only [Poly.containsArray, h1, if_false, hx, hc, bind, Except.bind]
    simp [reduce, hcs']
  · simp only [all_eq, decide_eq_true_iff]
    refine forall_congr' fun j => ?_
    have := hcr [(i : ℕ), (j : ℕ)] (List.Forall₂.cons i.2 (List.Forall₂.cons j.2 List.Forall₂.nil)) f
    simp only [List.cons_append, List.nil_append] at this
    simp [List.insertIdx, this]

theorem sum_filter_get {d : ℕ} (p : Fin d → Bool) (g : Fin d → K) :
    ∑ k : Fin ((List.finRange d).filter p).length, g (((List.finRange d).filter p).get k) =
      ∑ i ∈ Finset.univ.filter (fun i => p i = true), g i := by
  have hnd : ((List.finRange d).filter p).Nodup := (List.nodup_finRange d).filter _
  have e1 : Finset.univ.filter (fun i => p i = true) = ((List.finRange d).filter p).toFinset := by
    ext i; simp
  rw [e1, List.sum_toFinset _ hnd]
  rw [← List.sum_ofFn]
  congr 1
  apply List.ext_get
  · simp
  · intro k h1 h2
    simp

/-- The body of `Ellipsoid.contains` after `np.atleast_2d`. -/
theorem ellipsoid_core {d : ℕ} (e : Ellipsoid K d) (tol : K) {points : NdArray K} {n : ℕ} {r : List ℕ → Fin d → K}
    {ps0 : NdArray K} (h0 : points.zip (· - ·) (ofVec e.center) = .ok ps0) (hp : Rows ps0 [n] d fun i => r i - e.center) :
    ∃ res, e.containsRows points tol = .ok res ∧
    Entries res [n] fun i => e.contains (r i) tol := by
  obtain ⟨ps, hps, hpsr⟩ := matmul_mat hp e.rotation
  obtain ⟨pz, hpz, hpzr⟩ := cols_rows hpsr ((List.finRange d).filter fun i => e.z i)
  obtain ⟨pn, hpn, hpnr⟩ := cols_rows hpsr ((List.finRange d).filter fun i => !e.z i)
  obtain ⟨rz, hrz, hrzr⟩ := reduce_rows NdArray.all (fun v => decide (∀ k, v k = true)) (fun g => all_eq g)
    (map_rows (fun x => isclose x 0 0 tol) hpzr)
  obtain ⟨q, hq, hqr⟩ := vec_zip (· * ·) hpnr
    (fun i : Fin ((List.finRange d).filter fun i => !e.z i).length => e.hInvNz (((List.finRange d).filter fun i => !e.z i).get i) ^ 2)
  obtain ⟨q2, hq2, hq2r⟩ := zip_rows (· * ·) hqr hpnr
  obtain ⟨q3, hq3, hq3r⟩ := reduce_rows NdArray.sum (fun v => ∑ k, v k) (fun g => sum_eq g) hq2r
  obtain ⟨o, ho, hor⟩ := zip_same (· && ·) hrzr (map_entries (fun x => decide (x ≤ 1 + tol)) hq3r)
  refine ⟨o, ?_, hor.1, fun i hi => ?_⟩
  · simp only [Ellipsoid.containsRows, h0, hps, hpz, hpn, hrz, hq, hq2, hq3, ho, bind, Except.bind]
  · rw [hor.2 i hi]
    simp only [Ellipsoid.contains]
    congr 1
    · refine decide_eq_decide.mpr ⟨fun h j hj => ?_, fun h k => ?_⟩
      · obtain ⟨k, hk⟩ := List.mem_iff_get.mp (show j ∈ (List.finRange d).filter fun i => e.z i by simp [hj])
        have := h k
        rwa [hk] at this
      · exact h _ (List.mem_filter.mp (List.get_mem ((List.finRange d).filter fun i => e.z i) k)).2
    · rw [sum_filter_get (fun i => !e.z i)
        (fun j => e.hInvNz j ^ 2 * ((r i - e.center) ᵥ* e.rotation) j * ((r i - e.center) ᵥ* e.rotation) j)]
      simp

/-- From a test on two-dimensional arrays to the test on one point or a sequence of points. -/
theorem batch_test {α : Type} {d : ℕ} (rows : NdArray α → Py (NdArray Bool)) (test : (Fin d → α) → Bool)
    (h : ∀ {points : NdArray α} {n : ℕ} {r : List ℕ → Fin d → α}, Rows points [n] d r →
      ∃ res, rows points = .ok res ∧ Entries res [n] fun i => test (r i))
    {points : NdArray α} {s : List ℕ} (hs : Spec.Documented s) {r : List ℕ → Fin d → α} (hp : Rows points s d r) :
    ∃ out, (do
      pyAssert (decide (points.ndim ≤ 2))
      let res ← rows points.atleast2d
      if points.ndim = 1 then res.head else pure res : Py (NdArray Bool)) = .ok out ∧ Entries out s fun i => test (r i) := by
  obtain rfl | ⟨n, rfl⟩ := hs
  · have h1 : points.ndim = 1 := by simp [ndim, hp.1]
    obtain ⟨o, ho, hor⟩ := h (atleast_point hp)
    obtain ⟨c, hc, hcr⟩ := head_entries hor
    refine ⟨c, ?_, hcr.1, fun i hi => by cases hi; exact hcr.2 [] List.Forall₂.nil⟩
    simp only [h1, pyAssert, bind, Except.bind, show decide (1 ≤ 2) = true from rfl, if_true, ho, hc]
  · have h1 : points.ndim = 2 := by simp [ndim, hp.1]
    obtain ⟨o, ho, hor⟩ := h hp
    rw [atleast_points hp]
    refine ⟨o, ?_, hor⟩
    simp [h1, pyAssert, bind, Except.bind, ho, pure, Except.pure]

/-- C99: `Ellipsoid.contains` on one point or a sequence of points tests every point by itself. -/
theorem C99_ellipsoid {d : ℕ} (e : Ellipsoid K d) (tol : K) {points : NdArray K} {s : List ℕ} (hs : Spec.Documented s)
    {r : List ℕ → Fin d → K} (hp : Rows points s d r) :
    ∃ out, e.containsArray points tol = .ok out ∧ Entries out s fun i => e.contains (r i) tol :=
  batch_test (fun p => e.containsRows p tol) (fun p => e.contains p tol) (fun hp => by
    obtain ⟨ps, hps, hpsr⟩ := zip_vec (· - ·) hp e.center
    exact ellipsoid_core e tol hps hpsr) hs hp

/-- C99: `Ellipsoid.on_surface` on one point or a sequence of points tests every point by itself. -/
theorem C99_ellipsoid_surface {d : ℕ} (e : Ellipsoid K d) (tol : K) {points : NdArray K} {s : List ℕ} (hs : Spec.Documented s)
    {r : List ℕ → Fin d → K} (hp : Rows points s d r) :
    ∃ out, e.onSurfaceArray points tol = .ok out ∧ Entries out s fun i => e.onSurface (r i) tol := by
  by_cases hz : ∃ i, e.z i = true
  · have := C99_ellipsoid e tol hs hp
    simpa only [Ellipsoid.onSurfaceArray, Ellipsoid.onSurface, hz, if_true] using this
  · have := batch_test (fun p => e.onSurfaceRows p tol)
      (fun p => isclose (∑ i, (e.hInvNz i ^ 2 * ((p - e.center) ᵥ* e.rotation) i) * ((p - e.center) ᵥ* e.rotation) i) 1 0 tol)
      (fun hp => by
        obtain ⟨p0, hp0, hpr0⟩ := zip_vec (· - ·) hp e.center
        obtain ⟨ps, hps, hpsr⟩ := matmul_mat hpr0 e.rotation
        obtain ⟨q, hq, hqr⟩ := vec_zip (· * ·) hpsr (fun i => e.hInvNz i ^ 2)
        obtain ⟨q2, hq2, hq2r⟩ := zip_rows (· * ·) hqr hpsr
        obtain ⟨q3, hq3, hq3r⟩ := reduce_rows NdArray.sum (fun v => ∑ k, v k) (fun g => sum_eq g) hq2r
        refine ⟨_, by simp only [Ellipsoid.onSurfaceRows, hp0, hps, hq, hq2, hq3, bind, Except.bind]; rfl,
          map_entries (fun x => isclose x 1 0 tol) hq3r⟩) hs hp
    simpa only [Ellipsoid.onSurfaceArray, Ellipsoid.onSurface, hz, if_false] using this

/-- C99: `Box.on_surface` on one point or a sequence of points tests every point by itself. -/
theorem C99_box_surface (b : Box K) (tol : K) {points : NdArray K} {s : List ℕ} (hs : Spec.Documented s)
    {r : List ℕ → Fin 3 → K} (hp : Rows points s 3 r) :
    ∃ out, b.onSurfaceArray points tol = .ok out ∧ Entries out s fun i => b.onSurface (r i) tol :=
  batch_test (fun p => b.onSurfaceRows p tol) (fun p => b.onSurface p tol) (fun {_ n _} hp => by
    obtain ⟨c, hc, hcr⟩ := C99_poly b.toPoly tol (Or.inr ⟨n, rfl⟩) hp
    obtain ⟨p0, hp0, hpr0⟩ := zip_vec (· - ·) hp b.center
    obtain ⟨ps, hps, hpsr⟩ := matmul_mat hpr0 b.rotation
    obtain ⟨x, hx, hxr⟩ := col_rows hpsr 0
    obtain ⟨y, hy, hyr⟩ := col_rows hpsr 1
    obtain ⟨z, hz, hzr⟩ := col_rows hpsr 2
    obtain ⟨m, hm, hmr⟩ := zip_same (· || ·) (map_entries (fun t => isclose |t| (b.halfExtents 0) 0 tol) hxr)
      (map_entries (fun t => isclose |t| (b.halfExtents 1) 0 tol) hyr)
    obtain ⟨m2, hm2, hm2r⟩ := zip_same (· || ·) hmr (map_entries (fun t => isclose |t| (b.halfExtents 2) 0 tol) hzr)
    obtain ⟨o, ho, hor⟩ := zip_same (· && ·) hcr hm2r
    refine ⟨o, ?_, hor⟩
    have hx' : ps.col 0 = .ok x := hx
    have hy' : ps.col 1 = .ok y := hy
    have hz' : ps.col 2 = .ok z := hz
    simp only [Box.onSurfaceRows, hc, hp0, hps, hx', hy', hz', hm, hm2, ho, bind, Except.bind]) hs hp

/-- C99: `Cylinder.contains` on one point or a sequence of points tests every point by itself. -/
theorem C99_cylinder (c : Cylinder K) (tol : K) {points : NdArray K} {s : List ℕ} (hs : Spec.Documented s)
    {r : List ℕ → Fin 3 → K} (hp : Rows points s 3 r) :
    ∃ out, c.containsArray points tol = .ok out ∧ Entries out s fun i => c.contains (r i) tol := by
  obtain ⟨P1, h1, h1r⟩ := matmul_mat hp (Matrix.of fun (i : Fin 3) (_ : Fin 1) => c.longitudinalAxis i)
  obtain ⟨P2, h2, h2r⟩ := matmul_mat hp c.transverseAxes
  obtain ⟨r1, hr1, hr1r⟩ := C99_ellipsoid c.ell1 tol8 hs h1r
  obtain ⟨r2, hr2, hr2r⟩ := C99_ellipsoid c.ell2 tol8 hs h2r
  obtain ⟨o, ho, hor⟩ := zip_same (· && ·) hr1r hr2r
  exact ⟨o, by simp only [Cylinder.containsArray, h1, h2, hr1, hr2, ho, bind, Except.bind], hor⟩

theorem caps_any {points : NdArray K} {s : List ℕ} (hs : Spec.Documented s) {r : List ℕ → Fin 3 → K} (hp : Rows points s 3 r)
    (tol : K) {rc : NdArray Bool} {u : List ℕ → Bool} (hrc : Entries rc s u) : ∀ caps : List (Ellipsoid K 3),
    ∃ rs out, (caps.mapM fun e => e.containsArray points tol) = .ok rs ∧
      rs.foldrM (fun a acc => a.zip (· || ·) acc) rc = .ok out ∧
      Entries out s fun i => caps.any (fun e => e.contains (r i) tol) || u i
  | [] => ⟨[], rc, rfl, rfl, by simpa using hrc⟩
  | e :: caps => by
    obtain ⟨rs, out, hrs, hout, hor⟩ := caps_any hs hp tol hrc caps
    obtain ⟨a, ha, har⟩ := C99_ellipsoid e tol hs hp
    obtain ⟨o, ho, hoor⟩ := zip_same (· || ·) har hor
    refine ⟨a :: rs, o, ?_, ?_, ?_⟩
    · rw [List.mapM_cons, ha, hrs]; rfl
    · rw [List.foldrM_cons, hout]; exact ho
    · simpa only [List.any_cons, Bool.or_assoc] using hoor

/-- C99: `Capsule.contains` on one point or a sequence of points tests every point by itself. -/
theorem C99_capsule (c : Capsule K) (tol : K) {caps : List (Ellipsoid K 3)} (hc : c.caps = .ok caps) {points : NdArray K}
    {s : List ℕ} (hs : Spec.Documented s) {r : List ℕ → Fin 3 → K} (hp : Rows points s 3 r) :
    ∃ out, c.containsArray points tol = .ok out ∧ out.shape = s ∧ ∀ i, InShape i s →
      c.contains (r i) tol = .ok (out.data i) := by
  obtain ⟨rc, hrc, hrcr⟩ := C99_cylinder c.cylinder tol hs hp
  obtain ⟨rs, out, hrs, hout, hor⟩ := caps_any hs hp tol hrcr caps
  refine ⟨out, by simp only [Capsule.containsArray, hc, hrs, hrc, hout, bind, Except.bind], hor.1, fun i hi => ?_⟩
  rw [hor.2 i hi]
  simp only [Capsule.contains, hc, bind, Except.bind, pure, Except.pure]

/-- C99: an array of points with more than two axes is refused by ellipsoids and by `Box.on_surface`. -/
theorem C99_axes {d : ℕ} (e : Ellipsoid K d) (b : Box K) (tol : K) (points : NdArray K) (h : 2 < points.ndim) :
    e.containsArray points tol = .error .assertion ∧ e.onSurfaceArray points tol = .error .assertion ∧
      b.onSurfaceArray points tol = .error .assertion := by
  have h2 : ¬ points.ndim ≤ 2 := by omega
  refine ⟨?_, ?_, ?_⟩
  · simp [Ellipsoid.containsArray, pyAssert, h2, bind, Except.bind]
  · by_cases hz : ∃ i, e.z i = true
    · simp only [Ellipsoid.onSurfaceArray, hz, if_true]
      simp [Ellipsoid.containsArray, pyAssert, h2, bind, Except.bind]
    · simp only [Ellipsoid.onSurfaceArray, hz, if_false]
      simp [pyAssert, h2, bind, Except.bind]
  · simp [Box.onSurfaceArray, pyAssert, h2, bind, Except.bind]

/-- C99: and, for arrays of points of the right dimension, by cylinders … -/
theorem C99_axes_cylinder (c : Cylinder K) (tol : K) {points : NdArray K} {s : List ℕ} (h : 2 ≤ s.length)
    {r : List ℕ → Fin 3 → K} (hp : Rows points s 3 r) : c.containsArray points tol = .error .assertion := by
  obtain ⟨P1, h1, h1r⟩ := matmul_mat hp (Matrix.of fun (i : Fin 3) (_ : Fin 1) => c.longitudinalAxis i)
  obtain ⟨P2, h2, h2r⟩ := matmul_mat hp c.transverseAxes
  have hn : 2 < P1.ndim := by simp [ndim, h1r.1]; omega
  simp only [Cylinder.containsArray, h1, h2, (C99_axes c.ell1 ⟨0, 0, 0⟩ tol8 P1 hn).1, bind, Except.bind]

/-- C99: … and capsules. -/
theorem C99_axes_capsule (c : Capsule K) (tol : K) {caps : List (Ellipsoid K 3)} (hc : c.caps = .ok caps) {points : NdArray K}
    {s : List ℕ} (h : 2 ≤ s.length) {r : List ℕ → Fin 3 → K} (hp : Rows points s 3 r) :
    c.containsArray points tol = .error .assertion := by
  have hn : 2 < points.ndim := by simp [ndim, hp.1]; omega
  cases caps with
  | nil => simp [Capsule.containsArray, hc, C99_axes_cylinder c.cylinder tol h hp, bind, Except.bind, pure, Except.pure]
  | cons e caps =>
    simp only [Capsule.containsArray, hc, List.mapM_cons, (C99_axes e ⟨0, 0, 0⟩ tol points hn).1, bind, Except.bind]

/-- C99: an ellipsoid accepts an array of shape `(n, 1)` whatever its dimension: the numbers are broadcast, and the test is
made for the points all of whose coordinates are equal to them. -/
theorem C99_ellipsoid_broadcast {d : ℕ} (hd : d ≠ 1) (e : Ellipsoid K d) (tol : K) (n : ℕ) (x : List ℕ → K) :
    ∃ out, e.containsArray ⟨[n, 1], x⟩ tol = .ok out ∧
      Entries out [n] fun i => e.contains (fun _ => x (i ++ [0])) tol := by
  have hz : ∃ ps, (NdArray.mk [n, 1] x).zip (· - ·) (ofVec e.center) = .ok ps ∧
      Rows ps [n] d fun i => (fun _ => x (i ++ [0])) - e.center := by
    refine ⟨_, by simp [zip, ofVec, broadcastRev, Ne.symm hd, bind, Except.bind, pure, Except.pure]; rfl, by simp, fun i hi k => ?_⟩
    have hc1 : clip [n, 1] (i ++ [(k : ℕ)]) = i ++ [0] := by
      have := clip_snoc [n] i 1 k
      simpa [clip_self hi] using this
    simp only [hc1, clip_vec]
    simp
  obtain ⟨ps, hps, hpsr⟩ := hz
  obtain ⟨o, ho, hor⟩ := ellipsoid_core e tol (r := fun i => fun _ => x (i ++ [0])) hps hpsr
  refine ⟨o, ?_, hor⟩
  simp [Ellipsoid.containsArray, ndim, atleast2d, pyAssert, ho, bind, Except.bind, pure, Except.pure]

/-- C99: so does a bare number, which a polyhedron refuses; the answer is then an array of one entry. -/
theorem C99_ellipsoid_scalar {d : ℕ} (hd : d ≠ 1) (e : Ellipsoid K d) (P : Poly K d) (tol : K) (x : K) :
    (∃ out, e.containsArray ⟨[], fun _ => x⟩ tol = .ok out ∧ Entries out [1] fun _ => e.contains (fun _ => x) tol) ∧
      P.containsArray ⟨[], fun _ => x⟩ tol = .error .value := by
  refine ⟨?_, by simp [Poly.containsArray, ndim, matmul, bind, Except.bind]⟩
  obtain ⟨o, ho, hor⟩ := C99_ellipsoid_broadcast hd e tol 1 fun _ => x
  refine ⟨o, ?_, hor⟩
  simpa [Ellipsoid.containsArray, ndim, atleast2d, pyAssert, bind, Except.bind, pure, Except.pure] using ho

/-- Two points as an array: the centre of the unit cube and a point outside. -/
example : ∃ out, (⟨1, 1, 0⟩ : Box ℚ).toPoly.containsArray (ofMatrix !![0, 0, 0; 2, 0, 0]) tol8 = .ok out ∧ out.shape = [2] ∧
    out.data [0] = true ∧ out.data [1] = false := by
  obtain ⟨o, ho, hs, h⟩ := C99_poly (⟨1, 1, 0⟩ : Box ℚ).toPoly tol8 (points := ofMatrix !![0, 0, 0; 2, 0, 0]) (s := [2])
    (Or.inr ⟨2, rfl⟩) (r := fun i => if i = [0] then ![0, 0, 0] else ![2, 0, 0])
    (rows_ofMatrix _ _ fun i => by fin_cases i <;> decide +kernel)
  exact ⟨o, ho, hs, (h [0] (.cons (by omega) .nil)).trans (by decide +kernel),
    (h [1] (.cons (by omega) .nil)).trans (by decide +kernel)⟩

/-- The same two points with one more axis: the answer has one entry per face, not per point. -/
example : ∃ out, (⟨1, 1, 0⟩ : Box ℚ).toPoly.containsArray ⟨[1, 2, 3], fun i => if i = [0, 1, 0] then 2 else 0⟩ tol8 = .ok out ∧
    out.shape = [1, 6] := by
  obtain ⟨o, ho, hs, -⟩ := C99_poly_three_axes (⟨1, 1, 0⟩ : Box ℚ).toPoly tol8
    (points := ⟨[1, 2, 3], fun i => if i = [0, 1, 0] then 2 else 0⟩) (m := 1) (n := 2)
    (r := fun i k => if i ++ [(k : ℕ)] = [0, 1, 0] then 2 else 0) ⟨rfl, fun _ _ _ => rfl⟩
  exact ⟨o, ho, hs⟩

/-- An ellipsoid in space tests the number `1/2` as the point `(1/2, 1/2, 1/2)`. -/
example : ∃ out, (⟨1, 1, 0⟩ : Ellipsoid ℚ 3).containsArray ⟨[], fun _ => 1 / 2⟩ tol8 = .ok out ∧ out.shape = [1] ∧
    out.data [0] = true := by
  obtain ⟨⟨o, ho, hs, h⟩, -⟩ := C99_ellipsoid_scalar (by omega) (⟨1, 1, 0⟩ : Ellipsoid ℚ 3) (⟨1, 1, 0⟩ : Box ℚ).toPoly tol8 (1 / 2)
  exact ⟨o, ho, hs, (h [0] (.cons (by omega) .nil)).trans (by decide +kernel)⟩

end Rigeo
