import Verif.Lemmas.Cdd2
import Verif.Model.Box
import Verif.Props.Shapes3

/-!
# C61, C62, C63, C64: double descriptions of polyhedra; polyhedron part of C33

`cdd` is assumed to satisfy the contract `Spec.IsCdd`; `exists_cdd` shows that the contract can be met.
-/

namespace Spec

variable {K : Type} [Field K] [LinearOrder K] {d : ℕ}

/-- All coordinates of the points of the set are bounded. -/
def Bounded (S : Set (Fin d → K)) : Prop := ∃ B : K, ∀ x ∈ S, ∀ i, |x i| ≤ B

end Spec

namespace Rigeo

open Matrix

variable {K : Type} [Field K] [LinearOrder K] [IsStrictOrderedRing K] {d : ℕ}

/-! ### C61: forms and matrices -/

omit [IsStrictOrderedRing K] in
theorem orNone_getD {α : Type} (l : List α) : (SpanForm.orNone l).getD [] = l := by
  unfold SpanForm.orNone
  cases l <;> simp

theorem generated_lines (V R L : List (Fin d → K)) :
    Spec.generated V (R ++ (L ++ L.map fun v => -v)) [] = Spec.generated V R L := by
  ext x
  rw [mem_generated_iff, mem_generated_iff]
  unfold homGens
  simp

/-- `SpanForm.__init__` describes the polyhedron generated by the vertices, rays and lines passed to it:
the `span` generators become pairs of opposite rays without changing the set. -/
theorem C61_span_init (vertices rays span : Option (List (Fin d → K))) :
    Spec.spanned (SpanForm.init vertices rays span) =
      Spec.generated (vertices.getD []) (rays.getD []) (span.getD []) := by
  unfold SpanForm.init Spec.spanned
  cases span with
  | none => rfl
  | some s =>
    cases rays with
    | none => exact generated_lines (vertices.getD []) [] s
    | some r => exact generated_lines (vertices.getD []) r s

/-- `FaceForm.__init__` describes the solutions of the inequalities and equations passed to it. -/
theorem C61_face_init (ineq : List ((Fin d → K) × K)) (eq : Option (List ((Fin d → K) × K))) (x : Fin d → K) :
    x ∈ Spec.halfspaces (FaceForm.init ineq eq).faces ↔
      (∀ f ∈ ineq, f.1 ⬝ᵥ x ≤ f.2) ∧ ∀ f ∈ eq.getD [], f.1 ⬝ᵥ x = f.2 := by
  unfold FaceForm.init Spec.halfspaces
  cases eq with
  | none => simp
  | some e =>
    simp only [Set.mem_ofPred_eq, List.forall_mem_append, List.forall_mem_map, neg_dotProduct, neg_le_neg_iff,
      Option.getD_some]
    constructor
    · rintro ⟨⟨h1, h2⟩, h3⟩
      exact ⟨h1, fun f hf => le_antisymm (h2 f hf) (h3 f hf)⟩
    · rintro ⟨h1, h2⟩
      exact ⟨⟨h1, fun f hf => (h2 f hf).le⟩, fun f hf => (h2 f hf).ge⟩

theorem isclose_one_iff {a : K} (h : a = 0 ∨ a = 1) : isclose a 1 rtol5 tol8 = true ↔ a = 1 := by
  unfold isclose
  rcases h with rfl | rfl
  · simp only [decide_eq_true_eq, zero_sub, abs_neg, abs_one, mul_one, zero_ne_one, iff_false, not_le]
    unfold rtol5 tol8; norm_num
  · simp only [decide_eq_true_eq, sub_self, abs_zero, abs_one, mul_one, iff_true]
    unfold rtol5 tol8; positivity

theorem isclose_zero_iff {a : K} (h : a = 0 ∨ a = 1) : isclose a 0 rtol5 tol8 = true ↔ a = 0 := by
  rw [isclose_zero_right]
  rcases h with rfl | rfl
  · simp only [abs_zero, iff_true]; exact tol8_pos.le
  · simp only [abs_one, one_ne_zero, iff_false, not_le]; unfold tol8; norm_num

omit [Field K] [LinearOrder K] [IsStrictOrderedRing K] in
theorem plainRows_mem (m : CddMat K d) {rk : (K × (Fin d → K)) × ℕ} (h : rk ∈ m.rows.zipIdx) (h2 : rk.2 ∉ m.lin) :
    rk.1 ∈ Spec.plainRows m :=
  List.mem_map.mpr ⟨rk, List.mem_filter.mpr ⟨h, by simpa using h2⟩, rfl⟩

omit [Field K] [LinearOrder K] [IsStrictOrderedRing K] in
theorem linRows_mem (m : CddMat K d) {rk : (K × (Fin d → K)) × ℕ} (h : rk ∈ m.rows.zipIdx) (h2 : rk.2 ∈ m.lin) :
    rk.1 ∈ Spec.linRows m :=
  List.mem_map.mpr ⟨rk, List.mem_filter.mpr ⟨h, by simpa using h2⟩, rfl⟩

/-- The vertices, rays and lines of a generator matrix. -/
def gVerts (m : CddMat K d) : List (Fin d → K) := ((Spec.plainRows m).filter fun r => decide (r.1 = 1)).map Prod.snd
@[inherit_doc gVerts]
def gRays (m : CddMat K d) : List (Fin d → K) := ((Spec.plainRows m).filter fun r => decide (r.1 = 0)).map Prod.snd
@[inherit_doc gVerts]
def gLines (m : CddMat K d) : List (Fin d → K) := (Spec.linRows m).map Prod.snd

theorem SpanForm.fromCdd_eq (m : CddMat K d) (hm : Spec.WfGen m) (hne : m.rows ≠ []) :
    SpanForm.fromCdd m = .ok (some (SpanForm.init (SpanForm.orNone (gVerts m)) (SpanForm.orNone (gRays m))
      (SpanForm.orNone (gLines m)))) := by
  obtain ⟨h1, h2, h3⟩ := hm
  have hlen : m.rows.length ≠ 0 := by simpa using hne
  have hall : (m.lin.all fun k => decide (k < m.rows.length)) = true := by
    rw [List.all_eq_true]; intro k hk; simpa using h1 k hk
  have hrow : ∀ rk ∈ m.rows.zipIdx, rk.1.1 = 0 ∨ rk.1.1 = 1 := by
    intro rk hrk
    by_cases h : rk.2 ∈ m.lin
    · exact Or.inl (h3 _ (linRows_mem m hrk h))
    · exact h2 _ (plainRows_mem m hrk h)
  have hassert : (m.lin.isEmpty || m.rows.zipIdx.all fun rk => !decide (rk.2 ∈ m.lin) || isclose rk.1.1 0 rtol5 tol8) = true := by
    rw [Bool.or_eq_true]
    right
    rw [List.all_eq_true]
    intro rk hrk
    by_cases h : rk.2 ∈ m.lin
    · simp only [h, decide_true, Bool.not_true, Bool.false_or]
      exact (isclose_zero_iff (hrow rk hrk)).mpr (h3 _ (linRows_mem m hrk h))
    · simp [h]
  have ev : (m.rows.zipIdx.filter fun rk => isclose rk.1.1 1 rtol5 tol8).map (fun rk => rk.1.2) = gVerts m := by
    unfold gVerts Spec.plainRows
    rw [List.filter_map, List.map_map, List.filter_filter]
    have : (m.rows.zipIdx.filter fun rk => isclose rk.1.1 1 rtol5 tol8) =
        m.rows.zipIdx.filter (fun a => ((fun r : K × (Fin d → K) => decide (r.1 = 1)) ∘ Prod.fst) a && !decide (a.2 ∈ m.lin)) := by
      refine List.filter_congr fun rk hrk => ?_
      rw [Bool.eq_iff_iff, isclose_one_iff (hrow rk hrk)]
      simp only [Function.comp, Bool.and_eq_true, decide_eq_true_eq, Bool.not_eq_true', decide_eq_false_iff_not]
      refine ⟨fun h => ⟨h, fun hl => ?_⟩, fun h => h.1⟩
      have := h3 _ (linRows_mem m hrk hl)
      rw [h] at this
      exact one_ne_zero this
    rw [this]
    rfl
  have er : (m.rows.zipIdx.filter fun rk => isclose rk.1.1 0 rtol5 tol8 && !decide (rk.2 ∈ m.lin)).map (fun rk => rk.1.2) = gRays m := by
    unfold gRays Spec.plainRows
    rw [List.filter_map, List.map_map, List.filter_filter]
    have : (m.rows.zipIdx.filter fun rk => isclose rk.1.1 0 rtol5 tol8 && !decide (rk.2 ∈ m.lin)) =
        m.rows.zipIdx.filter (fun a => ((fun r : K × (Fin d → K) => decide (r.1 = 0)) ∘ Prod.fst) a && !decide (a.2 ∈ m.lin)) := by
      refine List.filter_congr fun rk hrk => ?_
      rw [Bool.eq_iff_iff]
      simp only [Bool.and_eq_true, isclose_zero_iff (hrow rk hrk), Function.comp, decide_eq_true_eq]
    rw [this]
    rfl
  have el : (m.rows.zipIdx.filter fun rk => decide (rk.2 ∈ m.lin)).map (fun rk => rk.1.2) = gLines m := by
    unfold gLines Spec.linRows
    rw [List.map_map]
    rfl
  unfold SpanForm.fromCdd
  rw [if_neg hlen]
  dsimp only
  rw [hall, hassert, ev, er, el]
  rfl

/-- `SpanForm.from_cdd_matrix` of a well formed generator matrix, with any linearity set, describes the
polyhedron of the matrix; a matrix without rows (an empty polyhedron) gives `None`. -/
theorem C61_span_from_cdd (m : CddMat K d) (hm : Spec.WfGen m) :
    (m.rows ≠ [] → ∃ s, SpanForm.fromCdd m = .ok (some s) ∧ Spec.spanned s = Spec.genSet m) ∧
    (m.rows = [] → SpanForm.fromCdd m = .ok none) := by
  constructor
  · intro hne
    refine ⟨_, SpanForm.fromCdd_eq m hm hne, ?_⟩
    rw [C61_span_init, orNone_getD, orNone_getD, orNone_getD]
    ext x
    exact ⟨fun h => ⟨hne, h⟩, fun h => h.2⟩
  · intro h
    unfold SpanForm.fromCdd
    simp [h]
    rfl

/-- A linearity row of a generator matrix that is not a direction is rejected. -/
theorem C61_span_from_cdd_assert (m : CddMat K d) (hl : Spec.LinInRange m)
    (h : ∃ r ∈ Spec.linRows m, tol8 < |r.1|) : SpanForm.fromCdd m = .error .assertion := by
  obtain ⟨r, hr, hb⟩ := h
  obtain ⟨rk, hrk, rfl⟩ := List.mem_map.mp hr
  obtain ⟨h1, h2⟩ := List.mem_filter.mp hrk
  have hne : m.rows ≠ [] := by
    intro e; rw [e] at h1; simp at h1
  have hlen : m.rows.length ≠ 0 := by simpa using hne
  have hall : (m.lin.all fun k => decide (k < m.rows.length)) = true := by
    rw [List.all_eq_true]; intro k hk; simpa using hl k hk
  have hassert : (m.lin.isEmpty || m.rows.zipIdx.all fun rk => !decide (rk.2 ∈ m.lin) || isclose rk.1.1 0 rtol5 tol8) = false := by
    rw [Bool.or_eq_false_iff]
    constructor
    · cases e : m.lin with
      | nil => rw [e] at h2; simp at h2
      | cons a l => rfl
    · rw [List.all_eq_false]
      refine ⟨rk, h1, ?_⟩
      rw [h2]
      simp only [Bool.not_true, Bool.false_or]
      rw [isclose_zero_right]
      exact not_le.mpr hb
  unfold SpanForm.fromCdd
  rw [if_neg hlen]
  dsimp only
  rw [hall, hassert]
  rfl

/-- `FaceForm.from_cdd_matrix` of an inequality matrix, with any linearity set, describes the solutions of
the matrix; it fails if there are no rows outside the linearity set. -/
theorem C61_face_from_cdd (m : CddMat K d) (hl : Spec.LinInRange m) :
    (Spec.plainRows m ≠ [] → ∃ f, FaceForm.fromCdd m = .ok f ∧ f.faces ≠ [] ∧
      Spec.halfspaces f.faces = Spec.ineqSet m) ∧
    (Spec.plainRows m = [] → FaceForm.fromCdd m = .error .index) := by
  have hall : (m.lin.all fun k => decide (k < m.rows.length)) = true := by
    rw [List.all_eq_true]; intro k hk; simpa using hl k hk
  have ei : (m.rows.zipIdx.filter fun rk => !decide (rk.2 ∈ m.lin)).map
      (fun rk => ((-rk.1.2 : Fin d → K), rk.1.1)) = (Spec.plainRows m).map fun r => (-r.2, r.1) := by
    unfold Spec.plainRows; rw [List.map_map]; rfl
  have ee : (m.rows.zipIdx.filter fun rk => decide (rk.2 ∈ m.lin)).map
      (fun rk => ((-rk.1.2 : Fin d → K), rk.1.1)) = (Spec.linRows m).map fun r => (-r.2, r.1) := by
    unfold Spec.linRows; rw [List.map_map]; rfl
  constructor
  · intro hp
    have hne : m.rows ≠ [] := by
      rintro e
      obtain ⟨r, hr⟩ := List.exists_mem_of_ne_nil _ hp
      have := plainRows_sub m hr
      rw [e] at this; simp at this
    have hlen : m.rows.length ≠ 0 := by simpa using hne
    have hi : ((Spec.plainRows m).map fun r => ((-r.2 : Fin d → K), r.1)).isEmpty = false := by
      cases e : Spec.plainRows m with
      | nil => exact absurd e hp
      | cons a l => rfl
    refine ⟨FaceForm.init ((Spec.plainRows m).map fun r => (-r.2, r.1))
      (if ((Spec.linRows m).map fun r => ((-r.2 : Fin d → K), r.1)).isEmpty then none
        else some ((Spec.linRows m).map fun r => (-r.2, r.1))), ?_, ?_, ?_⟩
    · unfold FaceForm.fromCdd
      rw [if_neg hlen]
      dsimp only
      rw [hall, ei, ee, hi]
      rfl
    · unfold FaceForm.init
      split <;> simp [hp]
    · ext x
      rw [C61_face_init]
      have hg : (if ((Spec.linRows m).map fun r => ((-r.2 : Fin d → K), r.1)).isEmpty then none
        else some ((Spec.linRows m).map fun r => ((-r.2 : Fin d → K), r.1))).getD [] =
          (Spec.linRows m).map fun r => ((-r.2 : Fin d → K), r.1) := by
        cases Spec.linRows m <;> simp
      rw [hg]
      simp only [List.forall_mem_map, neg_dotProduct, Spec.ineqSet, Set.mem_ofPred_eq]
      constructor
      · rintro ⟨h1, h2⟩
        refine ⟨fun r hr => ?_, fun r hr => ?_⟩
        · have := h1 r hr; linarith
        · have := h2 r hr; linarith
      · rintro ⟨h1, h2⟩
        refine ⟨fun r hr => ?_, fun r hr => ?_⟩
        · have := h1 r hr; linarith
        · have := h2 r hr; linarith
  · intro hp
    unfold FaceForm.fromCdd
    by_cases hlen : m.rows.length = 0
    · rw [if_pos hlen]; rfl
    · rw [if_neg hlen]
      dsimp only
      rw [hall, ei, ee, hp]
      rfl

/-- `FaceForm.to_cdd_matrix` followed by `from_cdd_matrix` gives back the same rows, and the matrix stands
for the same set. -/
theorem C61_face_roundtrip (f : FaceForm K d) (hf : f.faces ≠ []) :
    FaceForm.fromCdd f.toCdd = .ok f ∧ Spec.ineqSet f.toCdd = Spec.halfspaces f.faces := by
  constructor
  · unfold FaceForm.fromCdd FaceForm.toCdd
    have hlen : (f.faces.map fun ab => (ab.2, -ab.1)).length ≠ 0 := by simpa using hf
    rw [if_neg hlen]
    dsimp only
    have e1 : ((f.faces.map fun ab => (ab.2, -ab.1)).zipIdx.filter fun rk => !decide (rk.2 ∈ ([] : List ℕ))) =
        (f.faces.map fun ab => (ab.2, -ab.1)).zipIdx := by rw [List.filter_eq_self]; simp
    have e2 : ((f.faces.map fun ab => (ab.2, -ab.1)).zipIdx.filter fun rk => decide (rk.2 ∈ ([] : List ℕ))) = [] := by simp
    have e3 : ((f.faces.map fun ab => (ab.2, -ab.1)).zipIdx.map fun rk => ((-rk.1.2 : Fin d → K), rk.1.1)) = f.faces := by
      have : (fun rk : (K × (Fin d → K)) × ℕ => ((-rk.1.2 : Fin d → K), rk.1.1)) =
        (fun r : K × (Fin d → K) => ((-r.2 : Fin d → K), r.1)) ∘ Prod.fst := rfl
      rw [this, ← List.map_map, List.zipIdx_map_fst, List.map_map]
      simp [Function.comp_def]
    rw [e1, e2, e3]
    have e4 : f.faces.isEmpty = false := by
      cases e : f.faces with
      | nil => exact absurd e hf
      | cons a l => rfl
    simp only [List.all_nil, Bool.not_true, e4]
    rfl
  · ext x
    unfold FaceForm.toCdd
    rw [ineqSet_nil]
    simp only [List.forall_mem_map, neg_dotProduct, Spec.halfspaces, Set.mem_ofPred_eq]
    constructor
    · intro h f hf; have := h f hf; linarith
    · intro h f hf; have := h f hf; linarith

/-- The lists stored in a span form, if not `None`, have at least one row, and there is at least one list. -/
def SpanForm.Proper (s : SpanForm K d) : Prop :=
  s.vertices ≠ some [] ∧ s.rays ≠ some [] ∧ (s.vertices.isSome ∨ s.rays.isSome)

omit [IsStrictOrderedRing K] in
theorem SpanForm.toCdd_ok (s : SpanForm K d) (hs : s.Proper) : ∃ m, s.toCdd = .ok m ∧ m.rows ≠ [] ∧
    m = ⟨(s.vertices.getD []).map (fun v => ((1 : K), v)) ++ (s.rays.getD []).map (fun r => ((0 : K), r)), []⟩ := by
  obtain ⟨h1, h2, h3⟩ := hs
  refine ⟨_, ?_, ?_, rfl⟩
  · unfold SpanForm.toCdd
    rw [if_neg]
    intro h
    rw [Bool.and_eq_true, Option.isNone_iff_eq_none, Option.isNone_iff_eq_none] at h
    rw [h.1, h.2] at h3
    simp at h3
  · simp only [ne_eq, List.append_eq_nil_iff, List.map_eq_nil_iff, not_and_or]
    cases hv : s.vertices with
    | some l => left; rw [hv] at h1; simpa using h1
    | none =>
      cases hr : s.rays with
      | some l => right; rw [hr] at h2; simpa using h2
      | none => rw [hv, hr] at h3; simp at h3

theorem levels_wf (V R : List (Fin d → K)) :
    Spec.WfGen (⟨V.map (fun v => ((1 : K), v)) ++ R.map (fun r => ((0 : K), r)), []⟩ : CddMat K d) := by
  refine ⟨fun k hk => by simp at hk, fun r hr => ?_, fun r hr => ?_⟩
  · rw [plainRows_nil] at hr
    rcases List.mem_append.mp hr with h | h
    · obtain ⟨v, -, rfl⟩ := List.mem_map.mp h; exact Or.inr rfl
    · obtain ⟨v, -, rfl⟩ := List.mem_map.mp h; exact Or.inl rfl
  · rw [linRows_nil] at hr; simp at hr

theorem levels_parts (V R : List (Fin d → K)) :
    gVerts (⟨V.map (fun v => ((1 : K), v)) ++ R.map (fun r => ((0 : K), r)), []⟩ : CddMat K d) = V ∧
    gRays (⟨V.map (fun v => ((1 : K), v)) ++ R.map (fun r => ((0 : K), r)), []⟩ : CddMat K d) = R ∧
    gLines (⟨V.map (fun v => ((1 : K), v)) ++ R.map (fun r => ((0 : K), r)), []⟩ : CddMat K d) = [] := by
  unfold gVerts gRays gLines
  rw [plainRows_nil, linRows_nil, (filter_levels V R).1, (filter_levels V R).2, List.map_map, List.map_map]
  refine ⟨?_, ?_, rfl⟩ <;> simp [Function.comp_def]

/-- `SpanForm.to_cdd_matrix` followed by `from_cdd_matrix` gives back the same lists, and the matrix stands
for the same set. -/
theorem C61_span_roundtrip (s : SpanForm K d) (hs : s.Proper) : ∃ m, s.toCdd = .ok m ∧
    Spec.genSet m = Spec.spanned s ∧ SpanForm.fromCdd m = .ok (some s) := by
  obtain ⟨m, h1, h2, rfl⟩ := s.toCdd_ok hs
  refine ⟨_, h1, ?_, ?_⟩
  · ext x
    rw [genSet_levels]
    have : s.vertices.getD [] ≠ [] ∨ s.rays.getD [] ≠ [] := by
      simpa only [ne_eq, List.append_eq_nil_iff, List.map_eq_nil_iff, not_and_or] using h2
    exact ⟨fun h => h.2, fun h => ⟨this, h⟩⟩
  · rw [SpanForm.fromCdd_eq _ (levels_wf _ _) h2, (levels_parts _ _).1, (levels_parts _ _).2.1, (levels_parts _ _).2.2]
    obtain ⟨h3, h4, -⟩ := hs
    obtain ⟨v, r⟩ := s
    have e : ∀ o : Option (List (Fin d → K)), o ≠ some [] → SpanForm.orNone (o.getD []) = o := by
      intro o ho
      unfold SpanForm.orNone
      cases o with
      | none => simp
      | some l =>
        cases l with
        | nil => exact absurd rfl ho
        | cons a l => simp
    rw [e _ h3, e _ h4]
    rfl

/-- An empty span form cannot be converted. -/
theorem C61_span_none : (SpanForm.init none none none : SpanForm K d).toCdd = .error .type := rfl

/-- `SpanForm.to_face_form` describes the same polyhedron. -/
theorem C61_to_face_form (cdd : CddLib K) (hcdd : Spec.IsCdd cdd) (s : SpanForm K d) (hs : s.Proper) :
    ∃ f, s.toFaceForm cdd = .ok f ∧ f.faces ≠ [] ∧ Spec.halfspaces f.faces = Spec.spanned s := by
  obtain ⟨m, h1, h2, -⟩ := C61_span_roundtrip s hs
  obtain ⟨m', h1', hne, e⟩ := s.toCdd_ok hs
  rw [h1] at h1'
  cases h1'
  have hwf : Spec.WfGen m := by rw [e]; exact levels_wf _ _
  obtain ⟨hl, hp, hset⟩ := hcdd.inequalities m hwf hne
  obtain ⟨f, hf, hfne, hfs⟩ := (C61_face_from_cdd _ hl).1 hp
  refine ⟨f, ?_, hfne, ?_⟩
  · unfold SpanForm.toFaceForm
    rw [h1]
    exact hf
  · rw [hfs, hset, h2]

theorem FaceForm.toCdd_wf (f : FaceForm K d) (hf : f.faces ≠ []) :
    Spec.LinInRange f.toCdd ∧ f.toCdd.rows ≠ [] := by
  refine ⟨fun k hk => by simp [FaceForm.toCdd] at hk, ?_⟩
  simpa [FaceForm.toCdd] using hf

/-- `FaceForm.to_span_form` describes the same polyhedron; `None` means that it is empty. -/
theorem C61_to_span_form (cdd : CddLib K) (hcdd : Spec.IsCdd cdd) (f : FaceForm K d) (hf : f.faces ≠ []) :
    (Spec.halfspaces f.faces = ∅ → f.toSpanForm cdd = .ok none) ∧
    ((Spec.halfspaces f.faces).Nonempty →
      ∃ s, f.toSpanForm cdd = .ok (some s) ∧ Spec.spanned s = Spec.halfspaces f.faces) := by
  obtain ⟨h1, h2⟩ := f.toCdd_wf hf
  obtain ⟨hw, -, hset⟩ := hcdd.generators f.toCdd h1 h2
  rw [(C61_face_roundtrip f hf).2] at hset
  constructor
  · intro he
    refine (C61_span_from_cdd _ hw).2 ?_
    by_contra hne
    obtain ⟨x, hx⟩ := generated_nonempty (gVerts (cdd.generators f.toCdd)) (gRays _) (gLines _)
    have : x ∈ Spec.genSet (cdd.generators f.toCdd) := ⟨hne, hx⟩
    rw [hset, he] at this
    exact this
  · rintro ⟨x, hx⟩
    rw [← hset] at hx
    obtain ⟨s, hs, hss⟩ := (C61_span_from_cdd _ hw).1 hx.1
    exact ⟨s, hs, by rw [hss, hset]⟩

/-- `canonical()` keeps the set: for span forms always, for non-empty face forms unless `cdd` declares all
rows to be equations, in which case the call fails. -/
theorem C61_canonical (cdd : CddLib K) (hcdd : Spec.IsCdd cdd) :
    (∀ s : SpanForm K d, s.Proper → ∃ s', s.canonical cdd = .ok (some s') ∧ Spec.spanned s' = Spec.spanned s) ∧
    ∀ f : FaceForm K d, f.faces ≠ [] → (Spec.halfspaces f.faces).Nonempty →
      (Spec.plainRows (cdd.canonicalizeIneq f.toCdd) = [] ∧ f.canonical cdd = .error .index) ∨
      ∃ f', f.canonical cdd = .ok f' ∧ f'.faces ≠ [] ∧ Spec.halfspaces f'.faces = Spec.halfspaces f.faces := by
  constructor
  · intro s hs
    obtain ⟨m, h1, h2, -⟩ := C61_span_roundtrip s hs
    obtain ⟨m', h1', hne, e⟩ := s.toCdd_ok hs
    rw [h1] at h1'
    cases h1'
    have hwf : Spec.WfGen m := by rw [e]; exact levels_wf _ _
    obtain ⟨hw, -, hset⟩ := hcdd.canonicalizeGen m hwf hne
    have hne' : (cdd.canonicalizeGen m).rows ≠ [] := by
      obtain ⟨x, hx⟩ := generated_nonempty (s.vertices.getD []) (s.rays.getD []) []
      have : x ∈ Spec.genSet m := by rw [h2]; exact hx
      rw [← hset] at this
      exact this.1
    obtain ⟨s', hs', hss⟩ := (C61_span_from_cdd _ hw).1 hne'
    refine ⟨s', ?_, by rw [hss, hset, h2]⟩
    unfold SpanForm.canonical
    rw [h1]
    exact hs'
  · intro f hf hne
    obtain ⟨h1, h2⟩ := f.toCdd_wf hf
    rw [← (C61_face_roundtrip f hf).2] at hne
    obtain ⟨hl, hset⟩ := hcdd.canonicalizeIneq f.toCdd h1 h2 hne
    by_cases hp : Spec.plainRows (cdd.canonicalizeIneq f.toCdd) = []
    · exact Or.inl ⟨hp, (C61_face_from_cdd _ hl).2 hp⟩
    · obtain ⟨f', hf', hne', hs⟩ := (C61_face_from_cdd _ hl).1 hp
      exact Or.inr ⟨f', hf', hne', by rw [hs, hset, (C61_face_roundtrip f hf).2]⟩

/-! ### Bounded polyhedra -/

theorem hull_bounded (V : List (Fin d → K)) : Spec.Bounded (Spec.hull V) := by
  have hlist : ∃ B : K, ∀ v ∈ V, ∀ i, |v i| ≤ B := by
    induction V with
    | nil => exact ⟨0, by simp⟩
    | cons v V ih =>
      obtain ⟨B, hB⟩ := ih
      have hv : ∀ i, |v i| ≤ ∑ j, |v j| := fun i => Finset.single_le_sum (f := fun j => |v j|)
        (fun j _ => abs_nonneg _) (Finset.mem_univ i)
      refine ⟨max B (∑ j, |v j|), fun u hu i => ?_⟩
      rcases List.mem_cons.mp hu with rfl | hu
      · exact le_max_of_le_right (hv i)
      · exact le_max_of_le_left (hB u hu i)
  obtain ⟨B, hB⟩ := hlist
  refine ⟨B, ?_⟩
  intro x hx
  have hconv : Convex K {x : Fin d → K | ∀ i, |x i| ≤ B} := by
    intro x hx y hy a b ha hb hab i
    calc |(a • x + b • y) i| = |a * x i + b * y i| := by simp
      _ ≤ a * |x i| + b * |y i| := by
        refine (abs_add_le _ _).trans ?_
        rw [abs_mul, abs_mul, abs_of_nonneg ha, abs_of_nonneg hb]
      _ ≤ a * B + b * B := add_le_add (mul_le_mul_of_nonneg_left (hx i) ha) (mul_le_mul_of_nonneg_left (hy i) hb)
      _ = B := by rw [← add_mul, hab, one_mul]
  exact convexHull_min (s := {v | v ∈ V}) (t := {x : Fin d → K | ∀ i, |x i| ≤ B}) (fun v hv => hB v hv) hconv hx

theorem halfline_unbounded {S : Set (Fin d → K)} {x r : Fin d → K} (hr : r ≠ 0)
    (h : ∀ c : K, 0 ≤ c → x + c • r ∈ S) : ¬ Spec.Bounded S := by
  rintro ⟨B, hB⟩
  obtain ⟨i, hi⟩ := Function.ne_iff.mp hr
  have hi : r i ≠ 0 := hi
  have hpos : 0 < |r i| := abs_pos.mpr hi
  have h0 := hB _ (h 0 le_rfl) i
  have hB0 : 0 ≤ B := (abs_nonneg _).trans h0
  have hc : 0 ≤ (2 * B + 1) / |r i| := div_nonneg (by linarith) hpos.le
  have h1 := hB _ (h _ hc) i
  simp only [Pi.add_apply, Pi.smul_apply, smul_eq_mul, zero_mul, add_zero] at h0 h1
  have h2 : |((2 * B + 1) / |r i|) * r i| = 2 * B + 1 := by
    rw [abs_mul, abs_of_nonneg hc, div_mul_cancel₀ _ hpos.ne']
  have h3 : |((2 * B + 1) / |r i|) * r i| ≤ |x i + ((2 * B + 1) / |r i|) * r i| + |x i| := by
    calc |((2 * B + 1) / |r i|) * r i| = |(x i + ((2 * B + 1) / |r i|) * r i) - x i| := by rw [add_sub_cancel_left]
      _ ≤ _ := abs_sub _ _
  linarith

theorem generated_ray {V R L : List (Fin d → K)} {r : Fin d → K} (hr : r ∈ R) : ∃ x, ∀ c : K, 0 ≤ c →
    x + c • r ∈ Spec.generated V R L := by
  obtain ⟨x, v, u, l, h1, h2, h3, rfl⟩ := generated_nonempty V R L
  refine ⟨v + u + l, fun c hc => ⟨v, u + c • r, l, h1, coneHull_add h2 (coneHull_smul hc (coneHull_mem hr)), h3, ?_⟩⟩
  abel

theorem generated_hull {V : List (Fin d → K)} (hV : V ≠ []) : Spec.generated V [] [] = Spec.hull V := by
  ext x
  simp only [Spec.generated, if_neg hV, Set.mem_ofPred_eq, mem_coneHull_nil, mem_lineHull_nil]
  constructor
  · rintro ⟨v, r, l, h, rfl, rfl, rfl⟩; simpa using h
  · intro h; exact ⟨x, 0, 0, h, rfl, rfl, by simp⟩

/-! ### C64: construction -/

/-- The vertices and the faces of a polyhedron describe the same non-empty set. -/
def Poly.Consistent (P : Poly K d) : Prop :=
  P.vertices ≠ [] ∧ P.faceForm.faces ≠ [] ∧ Spec.hull P.vertices = Spec.halfspaces P.faceForm.faces

theorem Poly.contains_iff (P : Poly K d) (p : Fin d → K) :
    P.contains p 0 = true ↔ p ∈ Spec.halfspaces P.faceForm.faces := by
  unfold Poly.contains Spec.halfspaces
  simp [List.all_eq_true]

theorem Poly.Consistent.contains_iff {P : Poly K d} (h : P.Consistent) (p : Fin d → K) :
    P.contains p 0 = true ↔ p ∈ Spec.hull P.vertices := by
  rw [Poly.contains_iff, h.2.2]

/-- `from_vertices` on any non-empty list of points: the result keeps the points as its vertices and
contains exactly their convex hull. -/
theorem C64_from_vertices (cdd : CddLib K) (hcdd : Spec.IsCdd cdd) (vs : List (Fin d → K)) (hvs : vs ≠ []) :
    ∃ P, Poly.fromVertices cdd vs = .ok P ∧ P.vertices = vs ∧ P.Consistent ∧
      ∀ p, P.contains p 0 = true ↔ p ∈ Spec.hull vs := by
  have hs : (SpanForm.init (some vs) : SpanForm K d).Proper := by
    refine ⟨?_, ?_, Or.inl rfl⟩
    · simpa [SpanForm.init] using hvs
    · simp [SpanForm.init]
  obtain ⟨f, h1, h2, h3⟩ := C61_to_face_form cdd hcdd _ hs
  have h4 : Spec.halfspaces f.faces = Spec.hull vs := by
    rw [h3, C61_span_init]
    exact generated_hull hvs
  refine ⟨⟨vs, f⟩, ?_, rfl, ⟨hvs, h2, h4.symm⟩, fun p => ?_⟩
  · simp only [Poly.fromVertices, Poly.init, h1, bind, Except.bind, pure, Except.pure]
    rfl
  · rw [Poly.contains_iff, h4]

/-- `from_vertices(vs, prune=True)`: the hull is the same, the vertices are among the given points and none
of them is in the hull of the others. -/
theorem C64_from_vertices_prune (cdd : CddLib K) (hcdd : Spec.IsCdd cdd) (vs : List (Fin d → K)) (hvs : vs ≠ []) :
    ∃ P, Poly.fromVertices cdd vs true = .ok P ∧ (∀ v ∈ P.vertices, v ∈ vs) ∧ Spec.Irredundant P.vertices ∧
      P.Consistent ∧ ∀ p, P.contains p 0 = true ↔ p ∈ Spec.hull vs := by
  have hm : Spec.WfGen (⟨vs.map fun v => ((1 : K), v), []⟩ : CddMat K d) := by
    have := levels_wf vs []
    simpa only [List.map_nil, List.append_nil] using this
  have hne : (vs.map fun v => ((1 : K), v)) ≠ [] := by simpa using hvs
  have hg : Spec.genSet (⟨vs.map fun v => ((1 : K), v), []⟩ : CddMat K d) = Spec.hull vs := by
    ext x
    have := genSet_levels vs [] x
    simp only [List.map_nil, List.append_nil] at this
    rw [this, generated_hull hvs]
    simp [hvs]
  obtain ⟨h1, h2, h3⟩ := hcdd.canonicalizeGen _ hm hne
  have h4 := hcdd.canonicalizePoints vs hvs
  set m := cdd.canonicalizeGen (⟨vs.map fun v => ((1 : K), v), []⟩ : CddMat K d) with hmdef
  have hrows : ∀ r ∈ m.rows, r.1 = 1 ∧ r.2 ∈ vs := by
    intro r hr
    obtain ⟨v, hv, rfl⟩ := List.mem_map.mp (h2 r hr)
    exact ⟨rfl, hv⟩
  have hlin : m.lin = [] := by
    by_contra h
    obtain ⟨k, hk⟩ := List.exists_mem_of_ne_nil _ h
    have hlt := h1.1 k hk
    have hr : m.rows[k] ∈ Spec.linRows m :=
      linRows_mem m (rk := (m.rows[k], k)) (List.mem_zipIdx_iff_getElem?.mpr (by simp [hlt])) hk
    have := h1.2.2 _ hr
    rw [(hrows _ (linRows_sub m hr)).1] at this
    exact one_ne_zero this
  have hmr : m.rows = (m.rows.map Prod.snd).map fun v => ((1 : K), v) := by
    rw [List.map_map]
    conv_lhs => rw [← List.map_id m.rows]
    refine List.map_congr_left fun r hr => ?_
    simp only [id, Function.comp]
    rw [← (hrows r hr).1]
  set W := m.rows.map Prod.snd with hW
  have hrne : m.rows ≠ [] := by
    obtain ⟨v, hv⟩ := List.exists_mem_of_ne_nil vs hvs
    have : v ∈ Spec.genSet m := by rw [h3, hg]; exact subset_convexHull K _ hv
    exact this.1
  have hWne : W ≠ [] := by rw [hW]; simpa using hrne
  have hm2 : m = ⟨W.map fun v => ((1 : K), v), []⟩ := by
    cases e : m with
    | mk rows lin =>
      rw [e] at hmr hlin
      simp only at hmr hlin
      rw [hlin, ← hmr]
  have hcan : (SpanForm.init (some vs) : SpanForm K d).canonical cdd = .ok (some (SpanForm.init (some W))) := by
    unfold SpanForm.canonical
    have e1 : (SpanForm.init (some vs) : SpanForm K d).toCdd = .ok ⟨vs.map fun v => ((1 : K), v), []⟩ := by
      simp [SpanForm.init, SpanForm.toCdd]
    rw [e1]
    change SpanForm.fromCdd m = _
    rw [SpanForm.fromCdd_eq m h1 hrne]
    have := levels_parts W []
    simp only [List.map_nil, List.append_nil, ← hm2] at this
    rw [this.1, this.2.1, this.2.2]
    have e2 : SpanForm.orNone W = some W := by
      unfold SpanForm.orNone
      cases h : W with
      | nil => exact absurd h hWne
      | cons a l => rfl
    rw [e2]
    rfl
  obtain ⟨P, hP1, hP2, hP3, hP4⟩ := C64_from_vertices cdd hcdd W hWne
  have hWs : Spec.hull W = Spec.hull vs := by
    rw [← hg, ← h3]
    ext x
    have := genSet_levels W [] x
    simp only [List.map_nil, List.append_nil, ← hm2] at this
    rw [this, generated_hull hWne]
    simp [hWne]
  refine ⟨P, ?_, ?_, ?_, hP3, fun p => by rw [hP4, hWs]⟩
  · simp only [Poly.fromVertices, if_true, hcan, bind, Except.bind]
    simp only [Poly.fromVertices] at hP1
    exact hP1
  · intro v hv
    rw [hP2, hW] at hv
    obtain ⟨r, hr, rfl⟩ := List.mem_map.mp hv
    exact (hrows r hr).2
  · rw [hP2]; exact h4

/-- `convex_hull(points)` on any list of at least two points: the returned points are among the given ones,
span the same hull, and none is in the hull of the others. Shorter lists are returned unchanged. -/
theorem C64_convex_hull (cdd : CddLib K) (hcdd : Spec.IsCdd cdd) (ps : List (Fin d → K)) :
    (ps.length ≤ 1 → convexHullPoints cdd ps = .ok (some ps)) ∧
    (2 ≤ ps.length → ∃ vs, convexHullPoints cdd ps = .ok (some vs) ∧ (∀ v ∈ vs, v ∈ ps) ∧
      Spec.hull vs = Spec.hull ps ∧ Spec.Irredundant vs) := by
  constructor
  · intro h
    unfold convexHullPoints
    rw [if_pos h]
  · intro h
    have hne : ps ≠ [] := by rintro rfl; simp at h
    obtain ⟨P, h1, h2, h3, h4, h5⟩ := C64_from_vertices_prune cdd hcdd ps hne
    refine ⟨P.vertices, ?_, h2, ?_, h3⟩
    · unfold convexHullPoints
      rw [if_neg (by omega)]
      simp only [Poly.fromVertices, if_true, bind, Except.bind] at h1 ⊢
      cases hc : (SpanForm.init (some ps) : SpanForm K d).canonical cdd with
      | error e => rw [hc] at h1; simp at h1
      | ok s =>
        rw [hc] at h1
        simp only at h1 ⊢
        cases s with
        | none => simp [Poly.init, bind, Except.bind, throw, throwThe, MonadExceptOf.throw] at h1
        | some s =>
          simp only [pure, Except.pure]
          simp only [Poly.init, bind, Except.bind, pure, Except.pure] at h1
          cases hf : s.toFaceForm cdd with
          | error e => rw [hf] at h1; simp at h1
          | ok f =>
            rw [hf] at h1
            simp only at h1
            by_cases hb : s.bounded = true
            · rw [if_pos hb] at h1
              cases h1
              simp only [SpanForm.bounded, Bool.and_eq_true] at hb
              obtain ⟨l, hl⟩ := Option.isSome_iff_exists.mp hb.2
              rw [hl]; rfl
            · rw [if_neg hb] at h1
              cases h1
    · ext p
      rw [← h4.contains_iff, h5]

/-- The three outcomes of building a polyhedron from a face form: empty sets fail with an `AttributeError`,
unbounded sets are rejected with a `ValueError`, and bounded non-empty sets give a polyhedron that contains
exactly the points of the set. -/
theorem C64_face_form (cdd : CddLib K) (hcdd : Spec.IsCdd cdd) (f : FaceForm K d) (hf : f.faces ≠ []) :
    (Spec.halfspaces f.faces = ∅ → Poly.init cdd (some f) none = .error .attribute) ∧
    (¬ Spec.Bounded (Spec.halfspaces f.faces) → Poly.init cdd (some f) none = .error .value) ∧
    ((Spec.halfspaces f.faces).Nonempty → Spec.Bounded (Spec.halfspaces f.faces) →
      ∃ P, Poly.init cdd (some f) none = .ok P ∧ P.faceForm = f ∧ P.Consistent ∧
        ∀ p, P.contains p 0 = true ↔ p ∈ Spec.halfspaces f.faces) := by
  have hspan : (Spec.halfspaces f.faces).Nonempty → ∃ s, f.toSpanForm cdd = .ok (some s) ∧
      (s.bounded = true → s.vertices.getD [] ≠ [] ∧ Spec.hull (s.vertices.getD []) = Spec.halfspaces f.faces) ∧
      (s.bounded = false → ¬ Spec.Bounded (Spec.halfspaces f.faces)) := by
    intro hne
    obtain ⟨h1, h2⟩ := f.toCdd_wf hf
    obtain ⟨hw, hnz, hset⟩ := hcdd.generators f.toCdd h1 h2
    rw [(C61_face_roundtrip f hf).2] at hset
    set m := cdd.generators f.toCdd
    obtain ⟨x, hx⟩ := hne
    rw [← hset] at hx
    have hrne := hx.1
    have hgen : Spec.halfspaces f.faces = Spec.generated (gVerts m) (gRays m) (gLines m) := by
      rw [← hset]; ext x; exact ⟨fun h => h.2, fun h => ⟨hrne, h⟩⟩
    refine ⟨_, SpanForm.fromCdd_eq m hw hrne, ?_, ?_⟩
    · intro hb
      simp only [SpanForm.bounded, Bool.and_eq_true] at hb
      have hl : gLines m = [] := by
        by_contra h
        have : SpanForm.orNone (gLines m) = some (gLines m) := by
          unfold SpanForm.orNone; rw [if_neg]; simpa using h
        rw [this] at hb
        unfold SpanForm.init at hb
        cases h' : SpanForm.orNone (gRays m) <;> simp [h'] at hb
      have hn : SpanForm.orNone (gLines m) = none := by rw [hl]; rfl
      rw [hn] at hb ⊢
      simp only [SpanForm.init] at hb ⊢
      have hr : gRays m = [] := by
        by_contra h
        have : SpanForm.orNone (gRays m) = some (gRays m) := by
          unfold SpanForm.orNone; rw [if_neg]; simpa using h
        rw [this] at hb; simp at hb
      have hv : gVerts m ≠ [] := by
        intro h; rw [h] at hb; simp [SpanForm.orNone] at hb
      rw [orNone_getD]
      refine ⟨hv, ?_⟩
      rw [hgen, hr, hl, generated_hull hv]
    · intro hb
      have hcase : gRays m ≠ [] ∨ gLines m ≠ [] := by
        by_contra h
        push Not at h
        obtain ⟨hr, hl⟩ := h
        have hv : gVerts m ≠ [] := by
          intro hv
          apply hrne
          by_contra hne
          obtain ⟨r, hr0⟩ := List.exists_mem_of_ne_nil _ hne
          obtain ⟨k, hk, rfl⟩ := List.getElem_of_mem hr0
          have hz : (m.rows[k], k) ∈ m.rows.zipIdx := List.mem_zipIdx_iff_getElem?.mpr (by simp [hk])
          by_cases hkl : k ∈ m.lin
          · have := linRows_mem m hz hkl
            have : (m.rows[k]).2 ∈ gLines m := List.mem_map.mpr ⟨_, this, rfl⟩
            rw [hl] at this; simp at this
          · have hp := plainRows_mem m hz hkl
            rcases hw.2.1 _ hp with h0 | h1
            · have : (m.rows[k]).2 ∈ gRays m := List.mem_map.mpr ⟨_, List.mem_filter.mpr ⟨hp, by simpa using h0⟩, rfl⟩
              rw [hr] at this; simp at this
            · have : (m.rows[k]).2 ∈ gVerts m := List.mem_map.mpr ⟨_, List.mem_filter.mpr ⟨hp, by simpa using h1⟩, rfl⟩
              rw [hv] at this; simp at this
        rw [hr, hl] at hb
        have : SpanForm.orNone (gVerts m) = some (gVerts m) := by
          unfold SpanForm.orNone; rw [if_neg]; simpa using hv
        rw [this] at hb
        simp [SpanForm.orNone, SpanForm.init, SpanForm.bounded] at hb
      rw [hgen, ← generated_lines]
      rcases hcase with h | h
      · obtain ⟨r, hr⟩ := List.exists_mem_of_ne_nil _ h
        obtain ⟨x, hx⟩ := generated_ray (V := gVerts m) (R := gRays m ++ (gLines m ++ (gLines m).map fun v => -v)) (L := [])
          (r := r) (by simp [hr])
        refine halfline_unbounded ?_ hx
        obtain ⟨p, hp, rfl⟩ := List.mem_map.mp hr
        obtain ⟨hp1, hp2⟩ := List.mem_filter.mp hp
        exact hnz.1 p hp1 (by simpa using hp2)
      · obtain ⟨r, hr⟩ := List.exists_mem_of_ne_nil _ h
        obtain ⟨x, hx⟩ := generated_ray (V := gVerts m) (R := gRays m ++ (gLines m ++ (gLines m).map fun v => -v)) (L := [])
          (r := r) (by simp [hr])
        refine halfline_unbounded ?_ hx
        obtain ⟨p, hp, rfl⟩ := List.mem_map.mp hr
        exact hnz.2 p hp
  refine ⟨fun he => ?_, fun hb => ?_, fun hne hb => ?_⟩
  · have := (C61_to_span_form cdd hcdd f hf).1 he
    simp only [Poly.init, bind, Except.bind, pure, Except.pure, this]
    rfl
  · have hne : (Spec.halfspaces f.faces).Nonempty := by
      by_contra h
      rw [Set.not_nonempty_iff_eq_empty] at h
      exact hb ⟨0, by simp [h]⟩
    obtain ⟨s, h1, h2, -⟩ := hspan hne
    simp only [Poly.init, bind, Except.bind, pure, Except.pure, h1]
    rw [if_neg]
    · rfl
    · intro hs
      apply hb
      rw [← (h2 hs).2]
      exact hull_bounded _
  · obtain ⟨s, h1, h2, h3⟩ := hspan hne
    have hs : s.bounded = true := by
      by_contra h
      exact h3 (by simpa using h) hb
    refine ⟨⟨s.vertices.getD [], f⟩, ?_, rfl, ⟨(h2 hs).1, hf, (h2 hs).2⟩, fun p => Poly.contains_iff _ p⟩
    simp only [Poly.init, bind, Except.bind, pure, Except.pure, h1]
    rw [if_pos hs]

/-- Span forms with rays, and constructor calls without any form, are rejected. -/
theorem C64_rejects (cdd : CddLib K) (s : SpanForm K d) (f : FaceForm K d) :
    (s.rays.isSome ∨ s.vertices.isNone → Poly.init cdd (some f) (some s) = .error .value) ∧
    Poly.init (d := d) cdd none none = .error .attribute := by
  constructor
  · intro h
    simp only [Poly.init, bind, Except.bind, pure, Except.pure]
    rw [if_neg]
    · rfl
    · intro hb
      simp only [SpanForm.bounded, Bool.and_eq_true] at hb
      rcases h with h | h
      · rw [Option.isNone_iff_eq_none] at hb; rw [hb.1] at h; simp at h
      · rw [Option.isNone_iff_eq_none] at h; rw [h] at hb; simp at hb
  · rfl

/-- Span forms with a nonzero ray describe unbounded sets and are rejected when `cdd` computes the faces. -/
theorem C64_rejects_rays (cdd : CddLib K) (hcdd : Spec.IsCdd cdd) (s : SpanForm K d) (hs : s.Proper)
    (hr : s.rays.isSome) : Poly.init cdd none (some s) = .error .value := by
  obtain ⟨f, h1, -, -⟩ := C61_to_face_form cdd hcdd s hs
  simp only [Poly.init, bind, Except.bind, pure, Except.pure, h1]
  rw [if_neg]
  · rfl
  · intro hb
    simp only [SpanForm.bounded, Bool.and_eq_true, Option.isNone_iff_eq_none] at hb
    rw [hb.1] at hr; simp at hr

/-- `from_halfspaces(A, b)` on a non-empty list of half-spaces. -/
theorem C64_from_halfspaces (cdd : CddLib K) (hcdd : Spec.IsCdd cdd) (fs : List ((Fin d → K) × K)) (hfs : fs ≠ []) :
    (Spec.halfspaces fs = ∅ → Poly.fromHalfspaces cdd fs = .error .attribute) ∧
    (¬ Spec.Bounded (Spec.halfspaces fs) → Poly.fromHalfspaces cdd fs = .error .value) ∧
    ((Spec.halfspaces fs).Nonempty → Spec.Bounded (Spec.halfspaces fs) →
      ∃ P, Poly.fromHalfspaces cdd fs = .ok P ∧ P.faceForm.faces = fs ∧ P.Consistent ∧
        ∀ p, P.contains p 0 = true ↔ p ∈ Spec.halfspaces fs) := by
  obtain ⟨h1, h2, h3⟩ := C64_face_form cdd hcdd (FaceForm.init fs) hfs
  have e : Poly.fromHalfspaces cdd fs = Poly.init cdd (some (FaceForm.init fs)) none := by
    simp [Poly.fromHalfspaces, bind, Except.bind, pure, Except.pure]
  rw [e]
  refine ⟨h1, h2, fun ha hb => ?_⟩
  obtain ⟨P, hP, hf, hc, hm⟩ := h3 ha hb
  exact ⟨P, hP, by rw [hf]; rfl, hc, hm⟩

/-- `from_halfspaces(A, b, prune=True)` on bounded non-empty sets: the same set, or an `IndexError` if
pruning turns all half-spaces into equations. -/
theorem C64_from_halfspaces_prune (cdd : CddLib K) (hcdd : Spec.IsCdd cdd) (fs : List ((Fin d → K) × K)) (hfs : fs ≠ [])
    (hne : (Spec.halfspaces fs).Nonempty) (hb : Spec.Bounded (Spec.halfspaces fs)) :
    (Spec.plainRows (cdd.canonicalizeIneq (FaceForm.init fs).toCdd) = [] ∧
      Poly.fromHalfspaces cdd fs true = .error .index) ∨
    ∃ P, Poly.fromHalfspaces cdd fs true = .ok P ∧ P.Consistent ∧
      ∀ p, P.contains p 0 = true ↔ p ∈ Spec.halfspaces fs := by
  rcases (C61_canonical cdd hcdd).2 (FaceForm.init fs) hfs hne with ⟨h1, h2⟩ | ⟨f, h1, h2, h3⟩
  · left
    refine ⟨h1, ?_⟩
    simp [Poly.fromHalfspaces, bind, Except.bind, h2]
  · right
    have h3' : Spec.halfspaces f.faces = Spec.halfspaces fs := h3
    obtain ⟨P, hP, -, hc, hm⟩ := (C64_face_form cdd hcdd f h2).2.2 (by rw [h3']; exact hne) (by rw [h3']; exact hb)
    refine ⟨P, ?_, hc, fun p => by rw [hm, h3']⟩
    simp [Poly.fromHalfspaces, bind, Except.bind, h1, hP]

theorem simplex_hull (e : Fin d → K) (he : ∀ i, 0 < e i) :
    Spec.hull ((0 : Fin d → K) :: (List.finRange d).map fun i => Matrix.diagonal e i) =
      {x | (∀ i, 0 ≤ x i) ∧ ∑ i, x i / e i ≤ 1} := by
  apply Set.Subset.antisymm
  · refine convexHull_min ?_ ?_
    · intro v hv
      rcases List.mem_cons.mp hv with rfl | hv
      · simp
      · obtain ⟨i, -, rfl⟩ := List.mem_map.mp hv
        refine ⟨fun j => ?_, ?_⟩
        · by_cases h : i = j
          · subst h; simpa using (he i).le
          · simp [h]
        · rw [Finset.sum_eq_single i]
          · simp [(he i).ne']
          · intro j _ hj; simp [Ne.symm hj]
          · simp
    · intro x hx y hy a b ha hb hab
      refine ⟨fun i => ?_, ?_⟩
      · exact add_nonneg (mul_nonneg ha (hx.1 i)) (mul_nonneg hb (hy.1 i))
      · have : ∑ i, (a • x + b • y) i / e i = a * ∑ i, x i / e i + b * ∑ i, y i / e i := by
          rw [Finset.mul_sum, Finset.mul_sum, ← Finset.sum_add_distrib]
          refine Finset.sum_congr rfl fun i _ => ?_
          simp only [Pi.add_apply, Pi.smul_apply, smul_eq_mul]
          ring
        rw [this]
        calc a * ∑ i, x i / e i + b * ∑ i, y i / e i ≤ a * 1 + b * 1 :=
              add_le_add (mul_le_mul_of_nonneg_left hx.2 ha) (mul_le_mul_of_nonneg_left hy.2 hb)
          _ = 1 := by linarith
  · rintro x ⟨h1, h2⟩
    have hc := convex_convexHull K {v | v ∈ (0 : Fin d → K) :: (List.finRange d).map fun i => Matrix.diagonal e i}
    have := hc.sum_mem (t := Finset.univ) (w := fun o : Option (Fin d) => o.elim (1 - ∑ i, x i / e i) fun i => x i / e i)
      (z := fun o : Option (Fin d) => o.elim (0 : Fin d → K) fun i => Matrix.diagonal e i)
      (by
        rintro (_ | i) _
        · simpa using h2
        · exact div_nonneg (h1 i) (he i).le)
      (by rw [Fintype.sum_option]; simp)
      (by
        rintro (_ | i) _
        · exact subset_convexHull K _ (by simp)
        · exact subset_convexHull K _ (List.mem_cons_of_mem _ (List.mem_map.mpr ⟨i, by simp, rfl⟩)))
    rw [Fintype.sum_option] at this
    simp only [Option.elim] at this
    have e2 : (1 - ∑ i, x i / e i) • (0 : Fin d → K) + ∑ i, (x i / e i) • Matrix.diagonal e i = x := by
      rw [smul_zero, zero_add]
      ext j
      rw [Finset.sum_apply, Finset.sum_eq_single j]
      · simp [(he j).ne']
      · intro i _ hi; simp [hi]
      · simp
    rw [e2] at this
    exact this

/-- `simplex(extents)` contains exactly the points with non-negative coordinates whose ratios to the extents
sum to at most one; extents that are not positive are rejected. -/
theorem C64_simplex (cdd : CddLib K) (hcdd : Spec.IsCdd cdd) (e : Fin d → K) :
    ((∀ i, 0 < e i) → ∃ P, Poly.simplex cdd e = .ok P ∧ P.Consistent ∧ P.vertices.length = d + 1 ∧
      ∀ p, P.contains p 0 = true ↔ (∀ i, 0 ≤ p i) ∧ ∑ i, p i / e i ≤ 1) ∧
    ((∃ i, e i ≤ 0) → Poly.simplex cdd e = .error .assertion) := by
  constructor
  · intro he
    obtain ⟨P, h1, h2, h3, h4⟩ := C64_from_vertices cdd hcdd
      ((0 : Fin d → K) :: (List.finRange d).map fun i => Matrix.diagonal e i) (by simp)
    refine ⟨P, ?_, h3, by rw [h2]; simp, fun p => ?_⟩
    · simp [Poly.simplex, pyAssert, he, bind, Except.bind, h1]
    · rw [h4, simplex_hull e he]; rfl
  · rintro ⟨i, hi⟩
    have : ¬ ∀ i, 0 < e i := fun h => absurd (h i) (not_lt.mpr hi)
    simp only [Poly.simplex, pyAssert, this, decide_false, bind, Except.bind]
    rfl

/-! ### C62: intersection -/

/-- `FaceForm.stack` describes the intersection. -/
theorem C62_stack (f g : FaceForm K d) :
    Spec.halfspaces (f.stack g).faces = Spec.halfspaces f.faces ∩ Spec.halfspaces g.faces := by
  ext x
  simp [FaceForm.stack, FaceForm.init, Spec.halfspaces, or_imp, forall_and]

/-- `intersect` returns `None` exactly when two polyhedra have no common point, and otherwise a polyhedron
that contains exactly the common points. -/
theorem C62_intersect (cdd : CddLib K) (hcdd : Spec.IsCdd cdd) (P Q : Poly K d) (hP : P.Consistent)
    (hQ : Q.Consistent) :
    (Spec.hull P.vertices ∩ Spec.hull Q.vertices = ∅ → P.intersect cdd Q = .ok none) ∧
    ((Spec.hull P.vertices ∩ Spec.hull Q.vertices).Nonempty → ∃ S, P.intersect cdd Q = .ok (some S) ∧
      S.Consistent ∧ Spec.hull S.vertices = Spec.hull P.vertices ∩ Spec.hull Q.vertices ∧
      ∀ p, S.contains p 0 = true ↔ P.contains p 0 = true ∧ Q.contains p 0 = true) := by
  have hst := C62_stack P.faceForm Q.faceForm
  rw [← hP.2.2, ← hQ.2.2] at hst
  have hne : (P.faceForm.stack Q.faceForm).faces ≠ [] := by
    simp [FaceForm.stack, FaceForm.init, hP.2.1]
  constructor
  · intro h
    rw [← hst] at h
    have := (C61_to_span_form cdd hcdd _ hne).1 h
    simp only [Poly.intersect, bind, Except.bind, this]
    rfl
  · intro h
    rw [← hst] at h
    have hb : Spec.Bounded (Spec.halfspaces (P.faceForm.stack Q.faceForm).faces) := by
      obtain ⟨B, hB⟩ := hull_bounded P.vertices
      exact ⟨B, fun x hx => hB x (by rw [hst] at hx; exact hx.1)⟩
    obtain ⟨T, hT, hTf, hTc, -⟩ := (C64_face_form cdd hcdd _ hne).2.2 h hb
    -- the span form that `init` computed
    simp only [Poly.init, bind, Except.bind, pure, Except.pure] at hT
    obtain ⟨s, hs, -⟩ := (C61_to_span_form cdd hcdd _ hne).2 h
    rw [hs] at hT
    simp only at hT
    by_cases hbd : s.bounded = true
    · rw [if_pos hbd] at hT
      cases hT
      obtain ⟨v, r⟩ := s
      simp only [SpanForm.bounded, Bool.and_eq_true, Option.isNone_iff_eq_none] at hbd
      obtain ⟨rfl, hv⟩ := hbd
      obtain ⟨vs, rfl⟩ := Option.isSome_iff_exists.mp hv
      obtain ⟨S, hS1, hS2, hS3, hS4⟩ := C64_from_vertices cdd hcdd vs hTc.1
      have hSv : Spec.hull S.vertices = Spec.hull P.vertices ∩ Spec.hull Q.vertices := by
        rw [hS2, ← hst]; exact hTc.2.2
      refine ⟨S, ?_, hS3, hSv, fun p => ?_⟩
      · simp only [Poly.intersect, bind, Except.bind, hs]
        have : Poly.init cdd none (some (⟨some vs, none⟩ : SpanForm K d)) = .ok S := hS1
        rw [this]
        rfl
      · rw [hS3.contains_iff, hSv, hP.contains_iff, hQ.contains_iff]; rfl
    · rw [if_neg hbd] at hT; cases hT

/-- Boxes are consistent polyhedra, so `Box.intersect` is covered by `C62_intersect`. -/
theorem Box.toPoly_consistent (b : Box K) (hb : ∀ i, 0 ≤ b.halfExtents i) (hR : Spec.Orthogonal b.rotation) :
    b.toPoly.Consistent := by
  refine ⟨?_, by simp [Box.toPoly, Box.boxIneqs, FaceForm.init], ?_⟩
  · intro h
    have h1 := C25_vertices b hb
    have h2 : b.vertices = [] := h
    rw [h2] at h1
    have : Spec.hull ([] : List (Fin 3 → K)) = ∅ := by simp [Spec.hull]
    rw [this] at h1
    have : b.center ∈ Spec.box b.halfExtents b.rotation b.center :=
      ⟨0, by simpa using hb, by simp [Spec.rigid]⟩
    rw [← h1] at this
    exact this
  · have h1 := C25_vertices b hb
    ext p
    rw [show Spec.hull b.toPoly.vertices = Spec.hull b.vertices from rfl, h1, ← C25_contains b hR p,
      ← Poly.contains_iff]
    rfl

/-- Two boxes intersect as sets of points. -/
theorem C62_boxes (cdd : CddLib K) (hcdd : Spec.IsCdd cdd) (a b : Box K) (ha : ∀ i, 0 ≤ a.halfExtents i)
    (hb : ∀ i, 0 ≤ b.halfExtents i) (hRa : Spec.Orthogonal a.rotation) (hRb : Spec.Orthogonal b.rotation) :
    (Spec.box a.halfExtents a.rotation a.center ∩ Spec.box b.halfExtents b.rotation b.center = ∅ →
      a.toPoly.intersect cdd b.toPoly = .ok none) ∧
    ((Spec.box a.halfExtents a.rotation a.center ∩ Spec.box b.halfExtents b.rotation b.center).Nonempty →
      ∃ S, a.toPoly.intersect cdd b.toPoly = .ok (some S) ∧
        ∀ p, S.contains p 0 = true ↔ p ∈ Spec.box a.halfExtents a.rotation a.center ∧
          p ∈ Spec.box b.halfExtents b.rotation b.center) := by
  have h := C62_intersect cdd hcdd a.toPoly b.toPoly (a.toPoly_consistent ha hRa) (b.toPoly_consistent hb hRb)
  have h1 : Spec.hull a.toPoly.vertices = _ := C25_vertices a ha
  have h2 : Spec.hull b.toPoly.vertices = _ := C25_vertices b hb
  rw [h1, h2] at h
  refine ⟨h.1, fun hne => ?_⟩
  obtain ⟨S, hS, hc, hv, -⟩ := h.2 hne
  exact ⟨S, hS, fun p => by rw [hc.contains_iff, hv]; rfl⟩

/-! ### C63: transforms -/

/-- `FaceForm.transform` describes the image under the rigid motion. -/
theorem C63_face (f : FaceForm K d) (R : Matrix (Fin d) (Fin d) K) (hR : Spec.Orthogonal R) (t : Fin d → K) :
    Spec.halfspaces (f.transform (some R) (some t)).faces = Spec.moved R t (Spec.halfspaces f.faces) := by
  have key : ∀ (a y : Fin d → K), (a ᵥ* Rᵀ) ⬝ᵥ (R *ᵥ y) = a ⬝ᵥ y := by
    intro a y
    rw [← dotProduct_mulVec, mulVec_mulVec]
    have : Rᵀ * R = 1 := hR
    rw [this, one_mulVec]
  ext x
  constructor
  · intro hx
    refine ⟨Rᵀ *ᵥ (x - t), fun ab hab => ?_, ?_⟩
    · have := hx (ab.1 ᵥ* Rᵀ, ab.2 + (ab.1 ᵥ* Rᵀ) ⬝ᵥ t) (by
        simp only [FaceForm.transform, FaceForm.init, Option.getD_some]
        exact List.mem_map.mpr ⟨ab, hab, rfl⟩)
      simp only at this
      rw [dotProduct_mulVec, dotProduct_sub]
      linarith
    · simp only [Spec.rigid, mulVec_mulVec, hR.mul_transpose, one_mulVec, sub_add_cancel]
  · rintro ⟨y, hy, rfl⟩ g hg
    simp only [FaceForm.transform, FaceForm.init, Option.getD_some] at hg
    obtain ⟨ab, hab, rfl⟩ := List.mem_map.mp hg
    simp only [Spec.rigid]
    rw [dotProduct_add, key]
    have := hy ab hab
    linarith

/-- The defaults of `FaceForm.transform` are the identity rotation and the zero translation. -/
theorem C63_face_defaults (f : FaceForm K d) (R : Matrix (Fin d) (Fin d) K) (t : Fin d → K) :
    f.transform none (some t) = f.transform (some 1) (some t) ∧
    f.transform (some R) none = f.transform (some R) (some 0) ∧ f.transform none none = f := by
  refine ⟨rfl, rfl, ?_⟩
  obtain ⟨fs⟩ := f
  simp [FaceForm.transform, FaceForm.init]

theorem hull_image' (R : Matrix (Fin d) (Fin d) K) (t : Fin d → K) (vs : List (Fin d → K)) :
    Spec.hull (vs.map fun v => R *ᵥ v + t) = Spec.moved R t (Spec.hull vs) := by
  have h := (rigidAffine R t).image_convexHull {v | v ∈ vs}
  have e1 : (rigidAffine R t) '' {v | v ∈ vs} = {v | v ∈ vs.map fun v => R *ᵥ v + t} := by
    ext v
    simp only [Set.mem_image, Set.mem_ofPred_eq, List.mem_map, rigidAffine_apply]
    rfl
  rw [e1] at h
  unfold Spec.hull Spec.moved
  rw [← h]
  ext v
  simp only [Set.mem_image, rigidAffine_apply]

/-- `SpanForm.transform` describes the image under the rigid motion for forms without rays. -/
theorem C63_span (vs : List (Fin d → K)) (hvs : vs ≠ []) (R : Matrix (Fin d) (Fin d) K) (t : Fin d → K) :
    Spec.spanned ((SpanForm.init (some vs)).transform (some R) (some t)) =
      Spec.moved R t (Spec.spanned (SpanForm.init (some vs))) := by
  have h1 : Spec.spanned (SpanForm.init (some vs) : SpanForm K d) = Spec.hull vs := by
    rw [C61_span_init]; exact generated_hull hvs
  rw [h1, ← hull_image']
  have h2 : (SpanForm.init (some vs)).transform (some R) (some t) =
    SpanForm.init (some (vs.map fun v => R *ᵥ v + t)) := rfl
  rw [h2, C61_span_init]
  exact generated_hull (by simpa using hvs)

theorem coneHull_image (R : Matrix (Fin d) (Fin d) K) (rs : List (Fin d → K)) (x : Fin d → K) :
    x ∈ Spec.coneHull (rs.map fun v => R *ᵥ v) ↔ ∃ y ∈ Spec.coneHull rs, x = R *ᵥ y := by
  rw [coneHull_map]
  constructor
  · rintro ⟨w, hw, rfl⟩
    refine ⟨_, ⟨w, hw, rfl⟩, ?_⟩
    rw [mulVec_sum]
    exact Finset.sum_congr rfl fun k _ => by rw [mulVec_smul]
  · rintro ⟨y, ⟨w, hw, rfl⟩, rfl⟩
    refine ⟨w, hw, ?_⟩
    rw [mulVec_sum]
    exact Finset.sum_congr rfl fun k _ => by rw [mulVec_smul]

/-- Without a translation `SpanForm.transform` is right for all forms, rays included. -/
theorem C63_span_rotation (s : SpanForm K d) (R : Matrix (Fin d) (Fin d) K) :
    Spec.spanned (s.transform (some R) none) = Spec.moved R 0 (Spec.spanned s) := by
  obtain ⟨v, r⟩ := s
  have hv : (v.map fun l => l.map fun v => R *ᵥ v + (0 : Fin d → K)).getD [] = (v.getD []).map fun v => R *ᵥ v + 0 := by
    cases v <;> rfl
  have hr : (r.map fun l => l.map fun v => R *ᵥ v + (0 : Fin d → K)).getD [] = (r.getD []).map fun v => R *ᵥ v := by
    cases r <;> simp
  have e : Spec.spanned ((⟨v, r⟩ : SpanForm K d).transform (some R) none) =
      Spec.generated ((v.getD []).map fun v => R *ᵥ v + 0) ((r.getD []).map fun v => R *ᵥ v) [] := by
    rw [← hv, ← hr]
    rfl
  rw [e]
  have e2 : Spec.spanned (⟨v, r⟩ : SpanForm K d) = Spec.generated (v.getD []) (r.getD []) [] := rfl
  rw [e2]
  generalize v.getD [] = V
  generalize r.getD [] = U
  ext x
  simp only [Spec.generated, Spec.moved, Set.mem_ofPred_eq, Set.mem_image, mem_lineHull_nil, coneHull_image, Spec.rigid,
    List.map_eq_nil_iff]
  by_cases hV : V = []
  · simp only [hV, if_true]
    constructor
    · rintro ⟨_, _, _, rfl, ⟨y, hy, rfl⟩, rfl, rfl⟩
      exact ⟨y, ⟨0, y, 0, rfl, hy, rfl, by simp⟩, by simp⟩
    · rintro ⟨_, ⟨_, y, _, rfl, hy, rfl, rfl⟩, rfl⟩
      exact ⟨0, R *ᵥ y, 0, rfl, ⟨y, hy, rfl⟩, rfl, by simp⟩
  · simp only [hV, if_false, hull_image']
    constructor
    · rintro ⟨_, _, _, ⟨u, hu, rfl⟩, ⟨y, hy, rfl⟩, rfl, rfl⟩
      exact ⟨u + y, ⟨u, y, 0, hu, hy, rfl, by simp⟩, by simp [Spec.rigid, mulVec_add]⟩
    · rintro ⟨_, ⟨u, y, _, hu, hy, rfl, rfl⟩, rfl⟩
      exact ⟨Spec.rigid R 0 u, R *ᵥ y, 0, ⟨u, hu, rfl⟩, ⟨y, hy, rfl⟩, rfl, by simp [Spec.rigid, mulVec_add]⟩

/-- With a translation `SpanForm.transform` is wrong for forms with rays: the half-line `x ≥ 0` in the plane,
moved up by one, is not the set that the result describes. -/
theorem C63_span_rays_wrong : ∃ s : SpanForm ℚ 2, s.Proper ∧
    Spec.spanned (s.transform none (some ![0, 1])) ≠ Spec.moved 1 ![0, 1] (Spec.spanned s) := by
  refine ⟨⟨some [0], some [![1, 0]]⟩, by refine ⟨by simp, by simp, by simp⟩, fun h => ?_⟩
  have h1 : (![1, 2] : Fin 2 → ℚ) ∈ Spec.spanned ((⟨some [0], some [![1, 0]]⟩ : SpanForm ℚ 2).transform none (some ![0, 1])) := by
    refine ⟨![0, 1], ![1, 1], 0, ?_, ?_, (mem_lineHull_nil _).mpr rfl, ?_⟩
    · rw [if_neg (by simp [SpanForm.transform, SpanForm.init])]
      refine subset_convexHull ℚ _ ?_
      simp [SpanForm.transform, SpanForm.init]
    · refine coneHull_mem ?_
      simp [SpanForm.transform, SpanForm.init]
    · ext i; fin_cases i <;> norm_num
  rw [h] at h1
  obtain ⟨y, ⟨v, r, l, hv, hr, hl, rfl⟩, hy⟩ := h1
  have e1 := (mem_lineHull_nil _).mp hl
  subst e1
  simp only [Option.getD_some, List.cons_ne_self, if_false, reduceCtorEq] at hv hr
  have hv0 : v = 0 := by
    have : {u : Fin 2 → ℚ | u ∈ [(0 : Fin 2 → ℚ)]} = {0} := by ext; simp
    rw [Spec.hull, this] at hv; simpa using hv
  subst hv0
  obtain ⟨c, -, hc⟩ := (mem_coneHull_cons _ _ _).mp hr
  rw [mem_coneHull_nil, sub_eq_zero] at hc
  subst hc
  have := congrFun hy 1
  simp [Spec.rigid] at this

/-! ### C33 for polyhedra -/

/-- `ConvexPolyhedron.transform`: the vertices are moved, and the result contains exactly the images of the
points of the polyhedron. C33 asks for this at every tolerance; this is the part at tolerance zero. With a positive
tolerance the claim is false, see `C33_poly_tol`. -/
theorem C33_poly_partial (cdd : CddLib K) (hcdd : Spec.IsCdd cdd) (P : Poly K d) (hP : P.Consistent)
    (R : Matrix (Fin d) (Fin d) K) (hR : Spec.Orthogonal R) (t : Fin d → K) :
    ∃ P', P.transform cdd (some R) (some t) = .ok P' ∧ P'.Consistent ∧
      P'.vertices = P.vertices.map (Spec.rigid R t) ∧
      ∀ p, P'.contains (Spec.rigid R t p) 0 = P.contains p 0 := by
  have e : (P.vertices.map fun v => v ᵥ* Rᵀ + t) = P.vertices.map fun v => R *ᵥ v + t :=
    List.map_congr_left fun v _ => by rw [vecMul_transpose]
  obtain ⟨P', h1, h2, h3, h4⟩ := C64_from_vertices cdd hcdd (P.vertices.map fun v => R *ᵥ v + t) (by simpa using hP.1)
  refine ⟨P', ?_, h3, h2, fun p => ?_⟩
  · simp only [Poly.transform, Option.getD_some, e]
    exact h1
  · rw [Bool.eq_iff_iff, h4, hP.contains_iff, hull_image']
    constructor
    · rintro ⟨q, hq, he⟩
      have : q = p := by
        have h5 : R *ᵥ q = R *ᵥ p := add_right_cancel he
        have h6 : Rᵀ *ᵥ (R *ᵥ q) = Rᵀ *ᵥ (R *ᵥ p) := by rw [h5]
        have h7 : Rᵀ * R = 1 := hR
        simpa only [mulVec_mulVec, h7, one_mulVec] using h6
      rwa [← this]
    · intro h; exact ⟨p, h, rfl⟩

/-- Transforms of polyhedra compose like rigid motions. -/
theorem C33_poly_compose (cdd : CddLib K) (P : Poly K d)
    (R₁ R₂ : Matrix (Fin d) (Fin d) K) (t₁ t₂ : Fin d → K) (P₁ P₂ : Poly K d)
    (h₁ : P.transform cdd (some R₁) (some t₁) = .ok P₁) (h₂ : P₁.transform cdd (some R₂) (some t₂) = .ok P₂) :
    P.transform cdd (some (R₂ * R₁)) (some (R₂ *ᵥ t₁ + t₂)) = .ok P₂ := by
  have hv : P₁.vertices = P.vertices.map fun v => v ᵥ* R₁ᵀ + t₁ := by
    simp only [Poly.transform, Option.getD_some, Poly.fromVertices, Poly.init, bind, Except.bind, pure, Except.pure] at h₁
    cases hf : (SpanForm.init (some (P.vertices.map fun v => v ᵥ* R₁ᵀ + t₁)) : SpanForm K d).toFaceForm cdd with
    | error e => rw [hf] at h₁; simp at h₁
    | ok f =>
      rw [hf] at h₁
      simp only [SpanForm.init, SpanForm.bounded, Option.isNone_none, Option.isSome_some, Bool.and_self, if_true] at h₁
      simp at h₁
      rw [← h₁]
  rw [← h₂]
  simp only [Poly.transform, Option.getD_some, hv, List.map_map]
  congr 1
  refine List.map_congr_left fun v _ => ?_
  simp only [Function.comp, vecMul_transpose, mulVec_add, mulVec_mulVec, add_assoc]

/-! ### The hypotheses can be met -/

/-- The triangle with vertices `(0,0)`, `(1,0)`, `(0,1)`, intersected with a shifted copy, meets all hypotheses
of this file. -/
example : ∃ (cdd : CddLib ℚ) (P Q : Poly ℚ 2), Spec.IsCdd cdd ∧ P.Consistent ∧ Q.Consistent ∧
    (Spec.hull P.vertices ∩ Spec.hull Q.vertices).Nonempty ∧ P.vertices.length = 3 ∧
    Spec.Orthogonal (!![0, -1; 1, 0] : Matrix (Fin 2) (Fin 2) ℚ) := by
  obtain ⟨cdd, hcdd⟩ := exists_cdd (K := ℚ)
  obtain ⟨P, hP, hPc, hl, -⟩ := (C64_simplex cdd hcdd (![1, 1] : Fin 2 → ℚ)).1 (by intro i; fin_cases i <;> norm_num)
  refine ⟨cdd, P, P, hcdd, hPc, hPc, ?_, hl, ?_⟩
  · obtain ⟨v, hv⟩ := List.exists_mem_of_ne_nil _ hPc.1
    exact ⟨v, subset_convexHull ℚ _ hv, subset_convexHull ℚ _ hv⟩
  · unfold Spec.Orthogonal
    ext i j; fin_cases i <;> fin_cases j <;> simp [Matrix.mul_apply, Fin.sum_univ_two]

/-- A well formed generator matrix with a line, and an unbounded and an empty face form. -/
example : Spec.WfGen (⟨[(1, ![0, 0]), (0, ![1, 0])], [1]⟩ : CddMat ℚ 2) ∧
    ¬ Spec.Bounded (Spec.halfspaces [((![1] : Fin 1 → ℚ), (0 : ℚ))]) ∧
    Spec.halfspaces [((![1] : Fin 1 → ℚ), (0 : ℚ)), (![-1], -1)] = ∅ := by
  refine ⟨⟨by simp [Spec.LinInRange], ?_, ?_⟩, ?_, ?_⟩
  · simp [Spec.plainRows]
  · simp [Spec.linRows]
  · refine halfline_unbounded (x := ![0]) (r := ![-1]) (by simp) fun c hc => ?_
    simp [Spec.halfspaces, hc]
  · ext x
    simp [Spec.halfspaces]
    intro h; linarith

end Rigeo
