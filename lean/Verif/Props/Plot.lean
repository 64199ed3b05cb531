import Verif.Spec.Plot
import Verif.Props.LogFormat
import Mathlib.Tactic.Linarith
import Mathlib.Tactic.FieldSimp
import Mathlib.Tactic.LinearCombination
import Mathlib.Tactic.NormNum
import Mathlib.Tactic.Ring
import Mathlib.Tactic.FinCases

/-!
# C142: plots show the logged components over time

# C143: plots of observations show each observation
-/

namespace Verif.Props.Plot

open Verif.Log Verif.Log.Spec Verif.Model.Plot Verif.Spec.Plot Verif.Props.LogFormat

/-! ### Fields -/

theorem mapM_some' {α β : Type} (f : α → Option β) (g : α → β) (l : List α) (h : ∀ x ∈ l, f x = some (g x)) :
    l.mapM f = some (l.map g) := by
  induction l with
  | nil => rfl
  | cons a l ih =>
    rw [List.mapM_cons, h a (by simp), ih fun x hx => h x (by simp [hx])]
    rfl

theorem mapM_none' {α β : Type} (f : α → Option β) (l : List α) (a : α) (ha : a ∈ l) (h : f a = none) :
    l.mapM f = none := by
  induction l with
  | nil => simp at ha
  | cons b l ih =>
    rw [List.mapM_cons]
    rcases List.mem_cons.1 ha with rfl | h'
    · rw [h]; rfl
    · rw [ih h']
      cases f b <;> rfl

theorem field_some {fs : DFields} {k : String} {d : DType} (h : HasField fs k d) : field fs k = some d := by
  induction h with
  | here k d fs => simp [field]
  | there k k' d d' fs hk _ ih => simp [field, hk, ih]

theorem foldl_leads (a : Arr) {d d' : DType} {p : List String} (h : Leads d p d') (q : List String) :
    (p.map nm).foldlM (step a) (.node d q) = some (.node d' (q ++ p)) := by
  induction h generalizing q with
  | nil d => simp
  | cons fs k d p d' hf _ ih =>
    simp [List.foldlM_cons, nm, step, extract, field_some hf]
    have := ih (q ++ [k])
    simpa [nm] using this

theorem bottom_leads (a : Arr) {d : DType} {p : List String} (h : Leads a.d p d) (k : List Key) :
    bottomField a (p.map nm ++ k) = (k.foldlM (step a) (.node d p)).bind (finish a) := by
  rw [bottomField, List.foldlM_append, foldl_leads a h []]
  simp

theorem bottom_time (a : Arr) {s : Scalar} {t : Reading → Num} (h : Leads a.d ["t"] (.scalar s)) (hv : Value a ["t"] [] t) :
    bottomField a [nm "t"] = some (.inl (a.recs.map t)) := by
  have := bottom_leads a h []
  simp only [List.map_cons, List.map_nil, List.append_nil] at this
  rw [this]
  simp [finish, column, mapM_some' _ _ _ hv]

theorem zip_line (a : Arr) (t v : Reading → Num) : (a.recs.map t).zip (a.recs.map v) = lineOf a t v := by
  rw [lineOf, List.zip_map']

/-- `standard_plot(data, [names …, [i, j, …]])`: one panel for each index, showing the component of each record over its time. -/
theorem C142_vector (a : Arr) (t : Reading → Num) (s : Scalar) (ht : Leads a.d ["t"] (.scalar s)) (hv : Value a ["t"] [] t)
    (p : List String) (s' : Scalar) (r c : ℕ) (hp : Leads a.d p (.matrix s' r c)) (hc : 0 < c) (l : List ℕ) (hl : l ≠ [])
    (hi : ∀ i ∈ l, i < r) (v : ℕ → Reading → Num) (hy : ∀ i ∈ l, Value a p [i, 0] (v i)) :
    standardPlot a (p.map nm ++ [ix l]) [nm "t"] = some (l.map fun i => [lineOf a t (v i)]) := by
  rw [standardPlot, bottom_time a ht hv, bottom_leads a hp]
  have h1 : step a (.node (.matrix s' r c) p) (ix l) = some (.cols (l.map fun i => a.recs.map (v i))) := by
    cases l with
    | nil => exact absurd rfl hl
    | cons i l =>
      show (((Sub.int i :: l.map Sub.int).mapM fun s => (extract a (.node (.matrix s' r c) p) s).bind (column a)).map Fld.cols) = _
      rw [show (Sub.int i :: l.map Sub.int) = (i :: l).map Sub.int from rfl, List.mapM_map,
        mapM_some' _ (fun i => a.recs.map (v i))]
      · rfl
      · intro j hj
        simp [extract, hi j hj, hc, mapM_some' _ _ _ (hy j hj), column]
  simp only [List.foldlM_cons, List.foldlM_nil, h1, Option.bind_eq_bind, Option.bind_some, Option.pure_def, finish, Option.map_some,
    rawPlot, columns, List.map_map]
  congr 1
  refine List.map_congr_left fun i _ => ?_
  simp [zip_line]

/-- `standard_plot(data, [names …, ['a', 'b', …]])`: one panel for each name. -/
theorem C142_names (a : Arr) (t : Reading → Num) (s : Scalar) (ht : Leads a.d ["t"] (.scalar s)) (hv : Value a ["t"] [] t)
    (p : List String) (fs : DFields) (hp : Leads a.d p (.struct fs)) (l : List String) (hl : l ≠ [])
    (hi : ∀ k ∈ l, ∃ s, HasField fs k (.scalar s)) (v : String → Reading → Num) (hy : ∀ k ∈ l, Value a (p ++ [k]) [] (v k)) :
    standardPlot a (p.map nm ++ [nms l]) [nm "t"] = some (l.map fun k => [lineOf a t (v k)]) := by
  rw [standardPlot, bottom_time a ht hv, bottom_leads a hp]
  have h1 : step a (.node (.struct fs) p) (nms l) = some (.cols (l.map fun i => a.recs.map (v i))) := by
    cases l with
    | nil => exact absurd rfl hl
    | cons i l =>
      show (((Sub.str i :: l.map Sub.str).mapM fun s => (extract a (.node (.struct fs) p) s).bind (column a)).map Fld.cols) = _
      rw [show (Sub.str i :: l.map Sub.str) = (i :: l).map Sub.str from rfl, List.mapM_map,
        mapM_some' _ (fun i => a.recs.map (v i))]
      · rfl
      · intro j hj
        obtain ⟨s, hs⟩ := hi j hj
        simp [extract, field_some hs, mapM_some' _ _ _ (hy j hj), column]
  simp only [List.foldlM_cons, List.foldlM_nil, h1, Option.bind_eq_bind, Option.bind_some, Option.pure_def, finish, Option.map_some,
    rawPlot, columns, List.map_map]
  congr 1
  refine List.map_congr_left fun i _ => ?_
  simp [zip_line]

/-- `standard_plot(data, [names …])` of a vector: one panel for each of its components. -/
theorem C142_whole (a : Arr) (t : Reading → Num) (s : Scalar) (ht : Leads a.d ["t"] (.scalar s)) (hv : Value a ["t"] [] t)
    (p : List String) (s' : Scalar) (r c : ℕ) (hp : Leads a.d p (.matrix s' r c)) (hc : 0 < c)
    (v : ℕ → Reading → Num) (hy : ∀ i < r, Value a p [i, 0] (v i)) :
    standardPlot a (p.map nm) [nm "t"] = some ((List.range r).map fun i => [lineOf a t (v i)]) := by
  have hb := bottom_leads a hp []
  rw [List.append_nil] at hb
  rw [standardPlot, bottom_time a ht hv, hb]
  simp only [List.foldlM_nil, Option.pure_def, Option.bind_some, finish, if_pos hc]
  rw [mapM_some' _ (fun i => a.recs.map (v i)) _ fun i hi => mapM_some' _ _ _ (hy i (List.mem_range.1 hi))]
  simp only [Option.map_some, rawPlot, columns, List.map_map]
  congr 1
  refine List.map_congr_left fun i _ => ?_
  simp [zip_line]

/-- Names that lead nowhere are a `KeyError`. -/
theorem C142_missing (a : Arr) (p : List String) (fs : DFields) (hp : Leads a.d p (.struct fs)) (k : String)
    (hk : ∀ d, ¬ HasField fs k d) (rest x : List Key) : standardPlot a (p.map nm ++ nm k :: rest) x = none := by
  have hf : field fs k = none := by
    clear hp
    induction fs using DFields.rec (motive_1 := fun _ => True) with
    | nil => rfl
    | cons k' d fs _ ih =>
      have h : k' ≠ k := fun h => hk d (h ▸ HasField.here k' d fs)
      simp only [field, h, if_false]
      exact ih fun d' h' => hk d' (.there k k' d' d fs h h')
    | _ => trivial
  rw [standardPlot, bottom_leads a hp]
  simp [List.foldlM_cons, nm, step, extract, hf]

/-! ### The streams of the simulator -/

/-- The type of the records of the truth after the renaming. -/
def truthType : DType :=
  let v3 := DType.matrix .float64 3 1
  let f := DType.scalar .float64
  let quat := DType.struct (.cons "w" f (.cons "x" f (.cons "y" f (.cons "z" f .nil))))
  let pose := DType.struct (.cons "rot" quat (.cons "trans" v3 .nil))
  let tan := DType.struct (.cons "angular" v3 (.cons "linear" v3 .nil))
  .struct (.cons "stamp" (.struct (.cons "sec" (.scalar .int64) (.cons "nsec" (.scalar .int64) .nil)))
    (.cons "pose" (.struct (.cons "x" pose (.cons "dx" tan (.cons "d2x" tan .nil))))
      (.cons "T_e2g" pose (.cons "clk" (.matrix .float64 2 1) (.cons "t" f .nil)))))

/-- The type of the records of the samples after the renaming. -/
def imuType : DType :=
  let v3 := DType.matrix .float64 3 1
  let stamp := DType.struct (.cons "sec" (.scalar .int64) (.cons "nsec" (.scalar .int64) .nil))
  .struct (.cons "stamp" stamp (.cons "imu" (.struct (.cons "stamp" stamp (.cons "accel" v3 (.cons "gyro" v3 .nil))))
    (.cons "t" (.scalar .float64) .nil)))

/-- The record after the renaming, with its time. -/
def withTime (τ : Num → Num → Num) (vs : List VCol) (r : Stamp × Row (cols vs)) : Reading :=
  renameRec "t" "stamp" (recordView vs r) ++ [((["t"], []), τ (Number.num r.1.sec) (Number.num r.1.nsec))]

theorem load_of_reads (τ : Num → Num → Num) (vs : List VCol) (h : ReadsBack vs) (fs : DFields)
    (hd : (makeFormat (cols vs)).bind makeDtype = some (.struct fs)) (ht : (field fs "t").isSome) (rs : List (Stamp × Row (cols vs))) :
    load τ (cols vs) (streamFile (cols vs) rs) =
      some ⟨.struct (snoc (rename "t" "stamp" fs) "t" (.scalar .float64)), rs.map (withTime τ vs)⟩ := by
  have h1 := h rs
  have h2 : fromfile (.struct fs) (streamFile (cols vs) rs) = rs.map (recordView vs) := by
    cases hf : makeFormat (cols vs) with
    | none => rw [hf] at hd; exact absurd hd (by simp)
    | some f =>
      rw [hf] at hd
      simp only [Option.bind_some] at hd
      simp only [pyLoad, hf, Option.bind_eq_bind, Option.bind_some, hd, Option.pure_def, Option.some.injEq] at h1
      exact h1
  simp only [load, hd, Option.bind_some, normalize, ht, if_true, h2]
  rw [List.mapM_map, mapM_some' _ (withTime τ vs)]
  · rfl
  · intro r _
    simp only [recordView, View.view, renameRec, List.map_cons, List.map_nil, List.cons_append, List.nil_append,
      withTime]
    rfl

theorem load_truth (τ : Num → Num → Num) (rs : List (Stamp × Row (cols truthPose))) :
    load τ (cols truthPose) (streamFile (cols truthPose) rs) = some ⟨truthType, rs.map (withTime τ truthPose)⟩ := by
  rw [load_of_reads τ truthPose C110_streams.1 _ rfl rfl]
  rfl

theorem load_imu (τ : Num → Num → Num) (rs : List (Stamp × Row (cols imuStream))) :
    load τ (cols imuStream) (streamFile (cols imuStream) rs) = some ⟨imuType, rs.map (withTime τ imuStream)⟩ := by
  rw [load_of_reads τ imuStream C110_streams.2.1 _ rfl rfl]
  rfl

theorem value_of {R : Type} (d : DType) (rs : List R) (f : R → Reading) (p : List String) (l : List ℕ) (w : R → Num)
    (h : ∀ r, (f r).lookup (p, l) = some (w r)) :
    Value ⟨d, rs.map f⟩ p l fun x => (x.lookup (p, l)).getD (.int 0) := by
  intro x hx
  obtain ⟨r, _, rfl⟩ := List.mem_map.1 hx
  simp [h r]

theorem line_of {R : Type} (d : DType) (rs : List R) (f : R → Reading) (p q : List String) (l m : List ℕ) (w u : R → Num)
    (h : ∀ r, (f r).lookup (p, l) = some (w r)) (h' : ∀ r, (f r).lookup (q, m) = some (u r)) :
    lineOf ⟨d, rs.map f⟩ (fun x => (x.lookup (p, l)).getD (.int 0)) (fun x => (x.lookup (q, m)).getD (.int 0)) =
      rs.map fun r => (w r, u r) := by
  simp [lineOf, List.map_map, Function.comp_def, h, h']

theorem vector_of {R : Type} (d : DType) (rs : List R) (f : R → Reading) (τ : R → Num) (s : Scalar) (ht : Leads d ["t"] (.scalar s))
    (hτ : ∀ r, (f r).lookup (["t"], []) = some (τ r))
    (p : List String) (s' : Scalar) (n c : ℕ) (hp : Leads d p (.matrix s' n c)) (hc : 0 < c) (l : List ℕ) (hl : l ≠ [])
    (hi : ∀ i ∈ l, i < n) (w : ℕ → R → Num) (hw : ∀ i ∈ l, ∀ r, (f r).lookup (p, [i, 0]) = some (w i r)) :
    standardPlot ⟨d, rs.map f⟩ (p.map nm ++ [ix l]) [nm "t"] = some (l.map fun i => [rs.map fun r => (τ r, w i r)]) := by
  rw [C142_vector ⟨d, rs.map f⟩ _ s ht (value_of d rs f _ _ τ hτ) p s' n c hp hc l hl hi
    (fun i x => (x.lookup (p, [i, 0])).getD (.int 0)) fun i hi => value_of d rs f _ _ (w i) (hw i hi)]
  congr 1
  refine List.map_congr_left fun i hi => ?_
  rw [line_of d rs f _ _ _ _ τ (w i) hτ (hw i hi)]

theorem names_of {R : Type} (d : DType) (rs : List R) (f : R → Reading) (τ : R → Num) (s : Scalar) (ht : Leads d ["t"] (.scalar s))
    (hτ : ∀ r, (f r).lookup (["t"], []) = some (τ r))
    (p : List String) (fs : DFields) (hp : Leads d p (.struct fs)) (l : List String) (hl : l ≠ [])
    (hi : ∀ k ∈ l, ∃ s, HasField fs k (.scalar s)) (w : String → R → Num)
    (hw : ∀ k ∈ l, ∀ r, (f r).lookup (p ++ [k], []) = some (w k r)) :
    standardPlot ⟨d, rs.map f⟩ (p.map nm ++ [nms l]) [nm "t"] = some (l.map fun i => [rs.map fun r => (τ r, w i r)]) := by
  rw [C142_names ⟨d, rs.map f⟩ _ s ht (value_of d rs f _ _ τ hτ) p fs hp l hl hi
    (fun k x => (x.lookup (p ++ [k], [])).getD (.int 0)) fun k hk => value_of d rs f _ _ (w k) (hw k hk)]
  congr 1
  refine List.map_congr_left fun i hi => ?_
  rw [line_of d rs f _ _ _ _ τ (w i) hτ (hw i hi)]

theorem has {fs : DFields} {k : String} {d : DType} (h : field fs k = some d) : HasField fs k d := by
  induction fs using DFields.rec (motive_1 := fun _ => True) with
  | nil => simp [field] at h
  | cons k' d' fs _ ih =>
    by_cases e : k' = k
    · subst e
      simp only [field, if_true, Option.some.injEq] at h
      exact h ▸ .here _ _ _
    · simp only [field, e, if_false] at h
      exact .there _ _ _ _ _ e (ih h)
  | _ => trivial

/-- The number in a component of a vector. -/
def comp {n : ℕ} (v : Vector F64 n) (i : ℕ) : Num := .f64 ((v[i]?.getD ⟨0⟩).bits.toNat)

/-- The time of a record. -/
def seconds {α : Type} (τ : Num → Num → Num) (r : Stamp × α) : Num := τ (.int r.1.sec.toInt) (.int r.1.nsec.toInt)

/-- The plots of the truth (plot_post_process.py 40, 48, 56, 60, 70): whatever the simulator logged, the panels show the components of
translation, position, velocity, angular rate and clock over the time. -/
theorem C142_truth (τ : Num → Num → Num) (rs : List (Stamp × Row (cols truthPose))) :
    ∃ a, load τ (cols truthPose) (streamFile (cols truthPose) rs) = some a ∧
      standardPlot a [nm "pose", nm "x", nm "trans", ix [0, 1, 2]] [nm "t"] =
        some ([0, 1, 2].map fun i => [rs.map fun r => (seconds τ r, comp r.2.1.x.translation i)]) ∧
      standardPlot a [nm "T_e2g", nm "trans", ix [0, 1, 2]] [nm "t"] =
        some ([0, 1, 2].map fun i => [rs.map fun r => (seconds τ r, comp r.2.2.1.translation i)]) ∧
      standardPlot a [nm "pose", nm "dx", nm "linear", ix [0, 1, 2]] [nm "t"] =
        some ([0, 1, 2].map fun i => [rs.map fun r => (seconds τ r, comp r.2.1.dx (i + 3))]) ∧
      standardPlot a [nm "pose", nm "dx", nm "angular", ix [0, 1, 2]] [nm "t"] =
        some ([0, 1, 2].map fun i => [rs.map fun r => (seconds τ r, comp r.2.1.dx i)]) ∧
      standardPlot a [nm "clk", ix [0, 1]] [nm "t"] =
        some ([0, 1].map fun i => [rs.map fun r => (seconds τ r, comp r.2.2.2.1 i)]) := by
  have ht : Leads truthType ["t"] (.scalar .float64) := .cons _ _ _ _ _ (has rfl) (.nil _)
  refine ⟨_, load_truth τ rs, ?_, ?_, ?_, ?_, ?_⟩
  · refine vector_of truthType rs (withTime τ truthPose) (seconds τ) _ ht (fun r => rfl) ["pose", "x", "trans"] .float64 3 1 ?_
      (by norm_num) [0, 1, 2] (by simp) (by simp) (fun i r => comp r.2.1.x.translation i) ?_
    · exact .cons _ _ _ _ _ (has rfl) (.cons _ _ _ _ _ (has rfl) (.cons _ _ _ _ _ (has rfl) (.nil _)))
    · intro i hi r
      fin_cases hi <;> rfl
  · refine vector_of truthType rs (withTime τ truthPose) (seconds τ) _ ht (fun r => rfl) ["T_e2g", "trans"] .float64 3 1 ?_
      (by norm_num) [0, 1, 2] (by simp) (by simp) (fun i r => comp r.2.2.1.translation i) ?_
    · exact .cons _ _ _ _ _ (has rfl) (.cons _ _ _ _ _ (has rfl) (.nil _))
    · intro i hi r
      fin_cases hi <;> rfl
  · refine vector_of truthType rs (withTime τ truthPose) (seconds τ) _ ht (fun r => rfl) ["pose", "dx", "linear"] .float64 3 1 ?_
      (by norm_num) [0, 1, 2] (by simp) (by simp) (fun i r => comp r.2.1.dx (i + 3)) ?_
    · exact .cons _ _ _ _ _ (has rfl) (.cons _ _ _ _ _ (has rfl) (.cons _ _ _ _ _ (has rfl) (.nil _)))
    · intro i hi r
      fin_cases hi <;> rfl
  · refine vector_of truthType rs (withTime τ truthPose) (seconds τ) _ ht (fun r => rfl) ["pose", "dx", "angular"] .float64 3 1 ?_
      (by norm_num) [0, 1, 2] (by simp) (by simp) (fun i r => comp r.2.1.dx i) ?_
    · exact .cons _ _ _ _ _ (has rfl) (.cons _ _ _ _ _ (has rfl) (.cons _ _ _ _ _ (has rfl) (.nil _)))
    · intro i hi r
      fin_cases hi <;> rfl
  · refine vector_of truthType rs (withTime τ truthPose) (seconds τ) _ ht (fun r => rfl) ["clk"] .float64 2 1 ?_
      (by norm_num) [0, 1] (by simp) (by simp) (fun i r => comp r.2.2.2.1 i) ?_
    · exact .cons _ _ _ _ _ (has rfl) (.nil _)
    · intro i hi r
      fin_cases hi <;> rfl

/-- plot_post_process.py 52: the panels show the coefficients of the rotation in the order of their names. -/
theorem C142_rotation (τ : Num → Num → Num) (rs : List (Stamp × Row (cols truthPose))) :
    ∃ a, load τ (cols truthPose) (streamFile (cols truthPose) rs) = some a ∧
      standardPlot a [nm "pose", nm "x", nm "rot", nms ["w", "x", "y", "z"]] [nm "t"] =
        some ([0, 1, 2, 3].map fun i => [rs.map fun r => (seconds τ r, comp r.2.1.x.q.arr_ i)]) := by
  have ht : Leads truthType ["t"] (.scalar .float64) := .cons _ _ _ _ _ (has rfl) (.nil _)
  refine ⟨_, load_truth τ rs, ?_⟩
  have := names_of truthType rs (withTime τ truthPose) (seconds τ) _ ht (fun r => rfl) ["pose", "x", "rot"]
    (.cons "w" (.scalar .float64) (.cons "x" (.scalar .float64) (.cons "y" (.scalar .float64) (.cons "z" (.scalar .float64) .nil))))
    (.cons _ _ _ _ _ (has rfl) (.cons _ _ _ _ _ (has rfl) (.cons _ _ _ _ _ (has rfl) (.nil _)))) ["w", "x", "y", "z"] (by simp)
    (by
      intro k hk
      fin_cases hk <;> exact ⟨.float64, has rfl⟩)
    (fun k r => comp r.2.1.x.q.arr_ (if k = "w" then 0 else if k = "x" then 1 else if k = "y" then 2 else 3))
    (by
      intro k hk r
      fin_cases hk <;> rfl)
  simpa using this

/-- plot_post_process.py 64: the panels show the accelerations of the samples. -/
theorem C142_imu (τ : Num → Num → Num) (rs : List (Stamp × Row (cols imuStream))) :
    ∃ a, load τ (cols imuStream) (streamFile (cols imuStream) rs) = some a ∧
      standardPlot a [nm "imu", nm "accel", ix [0, 1, 2]] [nm "t"] =
        some ([0, 1, 2].map fun i => [rs.map fun r => (seconds τ r, comp r.2.1.accel i)]) := by
  have ht : Leads imuType ["t"] (.scalar .float64) := .cons _ _ _ _ _ (has rfl) (.nil _)
  refine ⟨_, load_imu τ rs, ?_⟩
  refine vector_of imuType rs (withTime τ imuStream) (seconds τ) _ ht (fun r => rfl) ["imu", "accel"] .float64 3 1 ?_
      (by norm_num) [0, 1, 2] (by simp) (by simp) (fun i r => comp r.2.1.accel i) ?_
  · exact .cons _ _ _ _ _ (has rfl) (.cons _ _ _ _ _ (has rfl) (.nil _))
  · intro i hi r
    fin_cases hi <;> rfl

/-! ### The calls of plot_post_process.py -/

/-- The type of the records of a stream after the renaming. -/
def Stream.type (s : Stream) : Option DType := (load (fun a _ => a) s.cols []).map Arr.d

/-- All names and indices of the calls exist in the streams. -/
theorem C142_calls : ∀ c ∈ calls, ∃ d, Stream.type c.1 = some d ∧ (standardPlot ⟨d, []⟩ c.2.1 c.2.2).isSome := by
  have h : ∀ c ∈ calls, ((Stream.type c.1).any fun d => (standardPlot ⟨d, []⟩ c.2.1 c.2.2).isSome) = true := by decide +kernel
  intro c hc
  have := h c hc
  cases hd : Stream.type c.1 with
  | none => simp [hd] at this
  | some d => exact ⟨d, rfl, by simpa [hd] using this⟩

/-- The names of a key. -/
def Key.names : Key → List String
  | .one (.str s) => [s]
  | _ => []

/-- How often a call starts with a name. -/
def drawn (s : String) : ℕ := calls.countP fun c => decide ((c.2.1.head?.map Key.names) = some [s])

/-- plot_post_process.py 67-69: the clock of Galileo is drawn twice, that of GLONASS never, though it is logged. -/
theorem C142_clock_violated : drawn "gps_clk" = 1 ∧ drawn "gal_clk" = 2 ∧ drawn "glo_clk" = 0 ∧
    ∃ fs, Stream.type .est = some (.struct fs) ∧ ∃ d, HasField fs "glo_clk" d :=
  ⟨by decide +kernel, by decide +kernel, by decide +kernel, _, rfl, _, has rfl⟩

/-! ### Differences -/

theorem interp_segment (l r : List (ℚ × ℚ)) (lo hi : ℚ × ℚ) (h : Increasing (l ++ lo :: hi :: r)) (x : ℚ)
    (h1 : lo.1 < x ∨ (l = [] ∧ lo.1 = x)) (h2 : x ≤ hi.1) :
    interpAt (l ++ lo :: hi :: r) x = some ((hi.2 - lo.2) / (hi.1 - lo.1) * (x - lo.1) + lo.2) := by
  have hp := List.pairwise_append.1 h
  have hq := List.pairwise_cons.1 hp.2.1
  have hq' := List.pairwise_cons.1 hq.2
  have hlt : lo.1 < hi.1 := hq.1 hi (by simp)
  obtain ⟨first, hf, hf'⟩ : ∃ f, (l ++ lo :: hi :: r).head? = some f ∧ f.1 ≤ x := by
    cases l with
    | nil => exact ⟨lo, rfl, by rcases h1 with h1 | h1; exacts [h1.le, h1.2.le]⟩
    | cons a l =>
      refine ⟨a, rfl, ?_⟩
      have := hp.2.2 a (by simp) lo (by simp)
      rcases h1 with h1 | h1
      · exact (this.trans h1).le
      · simp at h1
  obtain ⟨last, hg, hg'⟩ : ∃ f, (l ++ lo :: hi :: r).getLast? = some f ∧ x ≤ f.1 := by
    refine ⟨(hi :: r).getLast (by simp), ?_, ?_⟩
    · rw [List.getLast?_eq_some_getLast (by simp)]
      simp
    · rcases List.eq_nil_or_concat r with rfl | ⟨r', z, rfl⟩
      · simpa using h2
      · have := hq'.1 z (by simp)
        simp only [List.concat_eq_append]
        rw [List.getLast_cons (by simp), List.getLast_append_singleton]
        exact (h2.trans_lt this).le
  have hc : max 1 (min ((l ++ lo :: hi :: r).countP fun p => decide (p.1 < x)) ((l ++ lo :: hi :: r).length - 1)) = l.length + 1 := by
    have h3 : (hi :: r).countP (fun p => decide (p.1 < x)) = 0 := by
      rw [List.countP_eq_zero]
      intro a ha
      rcases List.mem_cons.1 ha with rfl | ha
      · simpa using h2
      · simpa using (h2.trans_lt (hq'.1 a ha)).le
    rcases h1 with h1 | ⟨h1, h1'⟩
    · have h4 : l.countP (fun p => decide (p.1 < x)) = l.length := by
        rw [List.countP_eq_length]
        intro a ha
        simpa using (hp.2.2 a ha lo (by simp)).trans h1
      rw [List.countP_append, List.countP_cons, h3, h4]
      simp [h1]
    · subst h1
      rw [List.nil_append, List.countP_cons, h3]
      simp [h1']
  rw [interpAt, hf, hg]
  simp only [Option.bind_some]
  rw [if_neg (by push Not; exact ⟨hf', hg'⟩), hc]
  have e1 : (l ++ lo :: hi :: r)[l.length + 1 - 1]? = some lo := by simp
  have e2 : (l ++ lo :: hi :: r)[l.length + 1]? = some hi := by simp
  rw [e1, e2]
  simp only [Option.bind_some]
  rw [if_neg hlt.ne']

/-- Between two neighbours the interpolated value is on the line through them. -/
theorem C142_between (l r : List (ℚ × ℚ)) (lo hi : ℚ × ℚ) (h : Increasing (l ++ lo :: hi :: r)) (x : ℚ)
    (h1 : lo.1 < x) (h2 : x ≤ hi.1) : ∃ y, interpAt (l ++ lo :: hi :: r) x = some y ∧ onLine lo hi x y := by
  refine ⟨_, interp_segment l r lo hi h x (.inl h1) h2, ?_⟩
  have : hi.1 - lo.1 ≠ 0 := by linarith [h1.trans_le h2] |> fun (h : 0 < hi.1 - lo.1) => h.ne'
  simp only [onLine]
  field_simp
  ring

/-- At a time at which there is a value, it is the value. -/
theorem C142_exact (pts : List (ℚ × ℚ)) (h : Increasing pts) (hl : 2 ≤ pts.length) (p : ℚ × ℚ) (hp : p ∈ pts) :
    interpAt pts p.1 = some p.2 := by
  obtain ⟨l, r, rfl⟩ := List.append_of_mem hp
  rcases List.eq_nil_or_concat l with rfl | ⟨l, q, rfl⟩
  · cases r with
    | nil => simp at hl
    | cons hi r =>
      have hlt : p.1 < hi.1 := (List.pairwise_cons.1 h).1 hi (by simp)
      rw [interp_segment [] r p hi h p.1 (.inr ⟨rfl, rfl⟩) hlt.le]
      simp
  · simp only [List.concat_eq_append, List.append_assoc, List.singleton_append] at h ⊢
    have hlt : q.1 < p.1 := (List.pairwise_cons.1 (List.pairwise_append.1 h).2.1).1 p (by simp)
    rw [interp_segment l r q p h p.1 (.inl hlt) le_rfl]
    have : p.1 - q.1 ≠ 0 := by intro h; linarith
    congr 1
    field_simp
    ring

theorem segment_exists (pts : List (ℚ × ℚ)) : ∀ a ∈ pts.head?, ∀ b ∈ pts.getLast?, ∀ x, a.1 ≤ x → x ≤ b.1 → 2 ≤ pts.length →
    ∃ l lo hi r, pts = l ++ lo :: hi :: r ∧ (lo.1 < x ∨ (l = [] ∧ lo.1 = x)) ∧ x ≤ hi.1 := by
  induction pts with
  | nil => simp
  | cons p pts ih =>
    intro a ha b hb x h1 h2 hl
    simp only [List.head?_cons, Option.mem_def, Option.some.injEq] at ha
    subst ha
    cases pts with
    | nil => simp at hl
    | cons q r =>
      by_cases hx : x ≤ q.1
      · exact ⟨[], p, q, r, rfl, by rcases h1.lt_or_eq with h | h; exacts [.inl h, .inr ⟨rfl, h⟩], hx⟩
      · push Not at hx
        cases r with
        | nil =>
          simp only [List.getLast?_cons_cons, List.getLast?_singleton, Option.mem_def, Option.some.injEq] at hb
          subst hb
          exact absurd h2 (not_le.2 hx)
        | cons q' r =>
          obtain ⟨l, lo, hi, r', he, h3, h4⟩ := ih q (by simp) b (by simpa using hb) x hx.le h2 (by simp)
          refine ⟨p :: l, lo, hi, r', by rw [he]; rfl, .inl ?_, h4⟩
          rcases h3 with h3 | ⟨rfl, h3⟩
          · exact h3
          · rw [List.nil_append, List.cons.injEq] at he
            exact he.1 ▸ hx

theorem sorted_merge (pts : List (ℚ × ℚ)) (h : Increasing pts) : pts.mergeSort (fun a b => decide (a.1 ≤ b.1)) = pts :=
  List.mergeSort_of_pairwise (List.Pairwise.imp (R := fun a b : ℚ × ℚ => a.1 < b.1) (fun h => by simpa using h.le) h)

/-- A truth that moves steadily is interpolated exactly: the difference is the error at each time, whatever the rates. -/
theorem C142_difference (d1 d2 : List (ℚ × ℚ)) (h : Increasing d2) (hl : 2 ≤ d2.length) (α β : ℚ) (hlin : ∀ p ∈ d2, p.2 = α * p.1 + β)
    (hr : ∀ p ∈ d1, ∀ a ∈ d2.head?, ∀ b ∈ d2.getLast?, a.1 ≤ p.1 ∧ p.1 ≤ b.1) :
    differenceSignals d1 d2 = some (d1.map fun p => p.2 - (α * p.1 + β)) := by
  rw [differenceSignals, sorted_merge d2 h]
  refine mapM_some' _ _ _ fun p hp => ?_
  have h0 : d2 ≠ [] := by rintro rfl; simp at hl
  have hh := List.head?_eq_some_head h0
  have hg := List.getLast?_eq_some_getLast h0
  obtain ⟨h1, h2⟩ := hr p hp _ hh _ hg
  obtain ⟨l, lo, hi, r, he, h3, h4⟩ := segment_exists d2 _ hh _ hg p.1 h1 h2 hl
  have e1 := hlin lo (by rw [he]; simp)
  have e2 := hlin hi (by rw [he]; simp)
  rw [he] at h ⊢
  rw [interp_segment l r lo hi h p.1 h3 h4, Option.map_some]
  have hlt : lo.1 < hi.1 := (List.pairwise_cons.1 (List.pairwise_append.1 h).2.1).1 hi (by simp)
  have : hi.1 - lo.1 ≠ 0 := by intro h; linarith
  congr 1
  rw [e1, e2]
  field_simp
  ring

/-- With a truth at the times of the estimates the difference is the difference. -/
theorem C142_same (ts : List ℚ) (hs : ts.Pairwise (· < ·)) (hl : 2 ≤ ts.length) (e v : ℚ → ℚ) :
    differenceSignals (ts.map fun t => (t, e t)) (ts.map fun t => (t, v t)) = some (ts.map fun t => e t - v t) := by
  have h : Increasing (ts.map fun t => (t, v t)) := by
    rw [Increasing, List.pairwise_map]
    exact hs
  rw [differenceSignals, sorted_merge _ h, List.mapM_map]
  refine mapM_some' _ _ _ fun t ht => ?_
  have := C142_exact _ h (by simpa using hl) (t, v t) (List.mem_map.2 ⟨t, ht, rfl⟩)
  simp only [Function.comp_apply]
  rw [show interpAt (ts.map fun t => (t, v t)) t = some (v t) from this]
  rfl

theorem interp_outside (pts : List (ℚ × ℚ)) (x : ℚ) (h : ∀ p ∈ pts, p.1 < x) : interpAt pts x = none := by
  rw [interpAt]
  cases hh : pts.head? with
  | none => rfl
  | some a =>
    cases hg : pts.getLast? with
    | none => rfl
    | some b =>
      simp only [Option.bind_some]
      rw [if_pos (.inr (h b (List.mem_of_getLast? hg)))]

/-- plot_post_process.py 31, 43: only as many records of the truth are used as there are estimates; when the truth is logged more often
than the estimates these end too early, and the script stops with an exception. -/
theorem C142_range_violated (h H : ℚ) (hh : 0 < h) (hH : h < H) (n N : ℕ) (hn : 2 ≤ n) (e v : ℕ → ℚ) :
    differenceSignals ((List.range n).map fun (k : ℕ) => ((k : ℚ) * H, e k)) (((List.range N).map fun (k : ℕ) => ((k : ℚ) * h, v k)).take n) = none := by
  rw [differenceSignals]
  refine mapM_none' _ _ (((n - 1 : ℕ) : ℚ) * H, e (n - 1)) ?_ ?_
  · exact List.mem_map.2 ⟨n - 1, List.mem_range.2 (by omega), rfl⟩
  · rw [interp_outside, Option.map_none]
    intro p hp
    rw [List.mem_mergeSort, ← List.map_take, List.take_range] at hp
    obtain ⟨k, hk, rfl⟩ := List.mem_map.1 hp
    have hk' : k ≤ n - 1 := by have := List.mem_range.1 hk; omega
    have h1 : (k : ℚ) ≤ ((n - 1 : ℕ) : ℚ) := by exact_mod_cast hk'
    have h2 : (0 : ℚ) < ((n - 1 : ℕ) : ℚ) := by exact_mod_cast (by omega : 0 < n - 1)
    show (k : ℚ) * h < _
    nlinarith

/-- The full statement: what is drawn as a difference is drawn for every log in which the truth covers the estimates. -/
def C142_statement : Prop :=
  ∀ est truth : List (ℚ × ℚ), Increasing est → Increasing truth → 2 ≤ est.length →
    (∀ p ∈ est, ∀ a ∈ truth.head?, ∀ b ∈ truth.getLast?, a.1 ≤ p.1 ∧ p.1 ≤ b.1) → truth ≠ [] →
    (differenceSignals est (truth.take est.length)).isSome

/-- Two estimates a second apart, truth every half second. -/
theorem C142_statement_false : ¬ C142_statement := by
  intro h
  have h1 := h [(0, 0), (1, 0)] [(0, 0), (1 / 2, 0), (1, 0)] (by simp [Increasing]) (by simp [Increasing]; norm_num) (by simp)
    (by simp) (by simp)
  have h2 := C142_range_violated (1 / 2) 1 (by norm_num) (by norm_num) 2 3 le_rfl (fun _ => 0) (fun _ => 0)
  have e1 : ((List.range 2).map fun (k : ℕ) => ((k : ℚ) * 1, (0 : ℚ))) = [(0, 0), (1, 0)] := by
    simp [List.range_succ]
  have e2 : (((List.range 3).map fun (k : ℕ) => ((k : ℚ) * (1 / 2), (0 : ℚ))).take 2) =
      (([(0, 0), (1 / 2, 0), (1, 0)] : List (ℚ × ℚ)).take 2) := by
    simp [List.range_succ]
  rw [e1, e2] at h2
  rw [show [((0 : ℚ), (0 : ℚ)), (1, 0)].length = 2 from rfl, h2] at h1
  simp at h1

/-- A difference in the middle of a segment. -/
example : differenceSignals [(1 / 2, 5), (1, 5)] [(0, 1), (1, 3)] = some [3, 2] := by
  rw [C142_difference _ _ (by simp [Increasing]) (by simp) 2 1 (by simp; norm_num) (by simp; norm_num)]
  norm_num

/-- The panels of a stream with one record. -/
example : ∃ a, load (fun s _ => s) (cols imuStream) (streamFile (cols imuStream)
      [(⟨7, 2⟩, (⟨⟨7, 2⟩, #v[⟨4⟩, ⟨5⟩, ⟨6⟩], #v[⟨1⟩, ⟨2⟩, ⟨3⟩]⟩, ()))]) = some a ∧
    standardPlot a [nm "imu", nm "accel", ix [0, 1, 2]] [nm "t"] =
      some [[[(.int 7, .f64 4)]], [[(.int 7, .f64 5)]], [[(.int 7, .f64 6)]]] := C142_imu _ _

end Verif.Props.Plot
