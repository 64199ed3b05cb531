import Verif.Spec.TestHelpers
import Mathlib.Tactic.Linarith
import Mathlib.Tactic.Ring
import Mathlib.Tactic.FieldSimp
import Mathlib.Tactic.Positivity
import Mathlib.Tactic.FinCases
import Mathlib.Tactic.NormNum
import Mathlib.Tactic.LinearCombination

/-!
# C140, C141: the comparisons of the tests, and random matrices
-/

namespace Verif.Props.TestHelpers

open Verif.Model.TestHelpers Verif.Spec.TestHelpers Verif.Model.Lie Verif.Model.TestHelpers.Fl

/-! ## Relative errors -/

theorem max_fin (x y : ℝ) : Fl.max (.fin x) (.fin y) = .fin (max x y) := by
  unfold Fl.max
  by_cases h : x < y
  · rw [if_pos (show Lt (.fin x) (.fin y) from h), max_eq_right h.le]
  · rw [if_neg (show ¬ Lt (.fin x) (.fin y) from h), max_eq_left (not_lt.1 h)]

theorem relErr_fin (x y : ℝ) : relErr (.fin x) (.fin y) = .fin (|x - y| / max (max |x| |y|) 1) := by
  have h : max (max |x| |y|) 1 ≠ 0 := by
    have : (1 : ℝ) ≤ max (max |x| |y|) 1 := le_max_right _ _
    linarith
  unfold relErr
  simp only [Fl.abs, Fl.sub, max_fin, Fl.div, if_neg h]

theorem lt_relErr (t x y : ℝ) : Lt (.fin t) (relErr (.fin x) (.fin y)) ↔ ¬ Close t x y := by
  rw [relErr_fin]
  have h : 0 < max (max |x| |y|) 1 := lt_of_lt_of_le one_pos (le_max_right _ _)
  show t < _ ↔ _
  rw [lt_div_iff₀ h, Close, not_le]

theorem relErr_nan (y : Fl) : relErr .nan y = .nan := by
  cases y <;> rfl

theorem relErr_pinf (y : ℝ) : relErr .pinf (.fin y) = .nan := by
  simp [relErr, Fl.abs, Fl.sub, Fl.max, Lt, Fl.div]

theorem relErr_ninf (y : ℝ) : relErr .ninf (.fin y) = .nan := by
  simp [relErr, Fl.abs, Fl.sub, Fl.max, Lt, Fl.div]

theorem not_lt_nan (t : Fl) : ¬ Lt t .nan := by cases t <;> simp [Lt]

/-! ## The loops -/

theorem fold_step (tol : Fl) (es : List Fl) : ∀ s : Bool × Fl,
    (es.foldl (step tol) s).1 = false ↔ s.1 = false ∧ ∀ e ∈ es, ¬ Lt tol e := by
  induction es with
  | nil => simp
  | cons e es ih =>
    intro s
    rw [List.foldl_cons, ih, step]
    by_cases h : Lt tol e
    · simp [h]
    · simp [h]

theorem fold_max (t : ℝ) (es : List ℝ) : ∀ (b : Bool) (m : ℝ), ∃ M,
    ((es.map Fl.fin).foldl (step (.fin t)) (b, .fin m)).2 = .fin M ∧ m ≤ M ∧ (∀ e ∈ es, t < e → e ≤ M) ∧
      (M = m ∨ M ∈ es ∧ t < M) := by
  induction es with
  | nil => intro b m; exact ⟨m, rfl, le_rfl, by simp, Or.inl rfl⟩
  | cons e es ih =>
    intro b m
    rw [List.map_cons, List.foldl_cons]
    by_cases h : t < e
    · have hs : step (.fin t) (b, .fin m) (.fin e) = (true, .fin (max m e)) := by
        unfold step
        rw [if_pos (show Lt (.fin t) (.fin e) from h)]
        have := max_fin m e
        unfold Fl.max at this
        rw [this]
      rw [hs]
      obtain ⟨M, h1, h2, h3, h4⟩ := ih true (max m e)
      refine ⟨M, h1, le_trans (le_max_left _ _) h2, ?_, ?_⟩
      · intro e' he' ht
        rcases List.mem_cons.1 he' with rfl | he'
        · exact le_trans (le_max_right _ _) h2
        · exact h3 e' he' ht
      · rcases h4 with rfl | ⟨h4, h5⟩
        · rcases max_choice m e with h' | h'
          · exact Or.inl h'
          · exact Or.inr ⟨by rw [h']; exact List.mem_cons_self, by rw [h']; exact h⟩
        · exact Or.inr ⟨List.mem_cons_of_mem _ h4, h5⟩
    · have hs : step (.fin t) (b, .fin m) (.fin e) = (b, .fin m) := by
        unfold step
        rw [if_neg (show ¬ Lt (.fin t) (.fin e) from h)]
      rw [hs]
      obtain ⟨M, h1, h2, h3, h4⟩ := ih b m
      refine ⟨M, h1, h2, ?_, ?_⟩
      · intro e' he' ht
        rcases List.mem_cons.1 he' with rfl | he'
        · exact absurd ht h
        · exact h3 e' he' ht
      · exact h4.imp id fun h' => ⟨List.mem_cons_of_mem _ h'.1, h'.2⟩

/-- The errors in the order of the loops. -/
noncomputable def errors (a b : Mat) : List Fl :=
  (List.range a.rows).flatMap fun r => (List.range b.cols).map fun c => relErr (a.at' r c) (b.at' r c)

theorem loops_eq (a b : Mat) (tol : Fl) (s : Bool × Fl) :
    (List.range a.rows).foldl (fun s r =>
      (List.range b.cols).foldl (fun s c => step tol s (relErr (a.at' r c) (b.at' r c))) s) s =
      (errors a b).foldl (step tol) s := by
  rw [errors, List.foldl_flatMap]
  congr 1
  funext s r
  rw [List.foldl_map]

theorem mem_errors {a b : Mat} {e : Fl} :
    e ∈ errors a b ↔ ∃ r < a.rows, ∃ c < b.cols, relErr (a.at' r c) (b.at' r c) = e := by
  simp [errors, List.mem_flatMap, List.mem_map, List.mem_range]

theorem close_iff (a b : Mat) (tol : Fl) :
    matrixClose a b tol = .success ↔ (a.rows = b.rows ∧ a.cols = b.cols) ∧
      ∀ r < a.rows, ∀ c < a.cols, ¬ Lt tol (relErr (a.at' r c) (b.at' r c)) := by
  unfold matrixClose
  by_cases hs : a.rows ≠ b.rows ∨ a.cols ≠ b.cols
  · rw [if_pos hs]
    simp only [reduceCtorEq, false_iff, not_and]
    intro h
    rcases hs with hs | hs
    · exact absurd h.1 hs
    · exact absurd h.2 hs
  · rw [if_neg hs]
    simp only [ne_eq, not_or, not_not] at hs
    simp only [loops_eq]
    have hk := fold_step tol (errors a b) (false, .fin 0)
    simp only [true_and] at hk
    by_cases he : ((errors a b).foldl (step tol) (false, .fin 0)).1 = false
    · rw [if_pos he]
      simp only [true_iff]
      exact ⟨hs, fun r hr c hc => hk.1 he _ (mem_errors.2 ⟨r, hr, c, hs.2 ▸ hc, rfl⟩)⟩
    · rw [if_neg he]
      simp only [reduceCtorEq, false_iff, not_and]
      intro _ hall
      refine he (hk.2 fun e hm => ?_)
      obtain ⟨r, hr, c, hc, rfl⟩ := mem_errors.1 hm
      exact hall r hr c (hs.2 ▸ hc)

/-- **C140**: finite matrices are accepted if and only if they have the same size and all their numbers are close. -/
theorem C140_matrix_partial (a b : Mat) (f g : ℕ → ℕ → ℝ) (ha : Holds a f) (hb : Holds b g) (t : ℝ) :
    matrixClose a b (.fin t) = .success ↔ (a.rows = b.rows ∧ a.cols = b.cols) ∧
      ∀ r < a.rows, ∀ c < a.cols, Close t (f r c) (g r c) := by
  rw [close_iff]
  refine and_congr_right fun hs => forall₂_congr fun r hr => forall₂_congr fun c hc => ?_
  rw [ha r hr c hc, hb r (hs.1 ▸ hr) c (hs.2 ▸ hc), lt_relErr, not_not]

/-- **C140**: a report of finite matrices shows in each layout every number of both, those in red that are not close, and gives the
greatest of the errors. -/
theorem C140_report_partial (a b : Mat) (f g : ℕ → ℕ → ℝ) (ha : Holds a f) (hb : Holds b g) (t : ℝ) (ht : 0 ≤ t)
    (e : Fl) (rep : List (List Cell)) (h : matrixClose a b (.fin t) = .failure e rep) :
    (∃ r < a.rows, ∃ c < a.cols, e = .fin (|f r c - g r c| / max (max |f r c| |g r c|) 1) ∧ ¬ Close t (f r c) (g r c) ∧
      ∀ r' < a.rows, ∀ c' < a.cols, |f r' c' - g r' c'| / max (max |f r' c'| |g r' c'|) 1 ≤
        |f r c - g r c| / max (max |f r c| |g r c|) 1) ∧
    ∀ r < a.rows, ∀ c < a.cols, ∃ s, (s = .red ↔ ¬ Close t (f r c) (g r c)) ∧
      (rep[r]?.bind (·[c]?)) = some ⟨s, .fin (f r c)⟩ ∧
      ((if a.cols > 6 then rep[a.rows + r]?.bind (·[c]?) else rep[r]?.bind (·[a.cols + c]?)) = some ⟨s, .fin (g r c)⟩) := by
  unfold matrixClose at h
  by_cases hs : a.rows ≠ b.rows ∨ a.cols ≠ b.cols
  · rw [if_pos hs] at h; exact absurd h (by simp)
  rw [if_neg hs] at h
  simp only [ne_eq, not_or, not_not] at hs
  simp only [loops_eq] at h
  by_cases he : ((errors a b).foldl (step (.fin t)) (false, .fin 0)).1 = false
  · rw [if_pos he] at h; exact absurd h (by simp)
  rw [if_neg he, Verdict.failure.injEq] at h
  obtain ⟨h1, h2⟩ := h
  constructor
  · let es : List ℝ := (List.range a.rows).flatMap fun r => (List.range b.cols).map fun c =>
      |f r c - g r c| / max (max |f r c| |g r c|) 1
    have hes : errors a b = es.map Fl.fin := by
      rw [List.map_flatMap, errors]
      refine List.flatMap_congr fun r hr => ?_
      rw [List.map_map]
      refine List.map_congr_left fun c hc => ?_
      rw [List.mem_range] at hr hc
      rw [ha r hr c (hs.2 ▸ hc), hb r (hs.1 ▸ hr) c hc, relErr_fin]; rfl
    obtain ⟨M, m1, m2, m3, m4⟩ := fold_max t es false 0
    have hmem : ∀ x, x ∈ es ↔ ∃ r < a.rows, ∃ c < a.cols, |f r c - g r c| / max (max |f r c| |g r c|) 1 = x := by
      intro x
      simp only [es, List.mem_flatMap, List.mem_map, List.mem_range, hs.2]
    have hex : ∃ x ∈ es, t < x := by
      have := (fold_step (.fin t) (errors a b) (false, .fin 0)).not.1 he
      simp only [true_and, not_forall, not_not] at this
      obtain ⟨x, hx, hl⟩ := this
      rw [hes, List.mem_map] at hx
      obtain ⟨x', hx', rfl⟩ := hx
      exact ⟨x', hx', hl⟩
    obtain ⟨x, hx, hlx⟩ := hex
    have hM : M ∈ es ∧ t < M := by
      rcases m4 with rfl | m4
      · have := m3 x hx hlx; linarith
      · exact m4
    obtain ⟨r, hr, c, hc, hrc⟩ := (hmem M).1 hM.1
    refine ⟨r, hr, c, hc, ?_, ?_, ?_⟩
    · rw [← h1, hes, m1, hrc]
    · have := lt_relErr t (f r c) (g r c)
      rw [relErr_fin, hrc] at this
      exact this.1 hM.2
    · intro r' hr' c' hc'
      rw [hrc]
      by_cases hl : t < |f r' c' - g r' c'| / max (max |f r' c'| |g r' c'|) 1
      · exact m3 _ ((hmem _).2 ⟨r', hr', c', hc', rfl⟩) hl
      · linarith [hM.2]
  · intro r hr c hc
    have hr' : r < b.rows := hs.1 ▸ hr
    have hc' : c < b.cols := hs.2 ▸ hc
    have hcell : ∃ s, (s = Style.red ↔ ¬ Close t (f r c) (g r c)) ∧ cell a b a (.fin t) r c = ⟨s, .fin (f r c)⟩ ∧
        cell a b b (.fin t) r c = ⟨s, .fin (g r c)⟩ := by
      unfold cell
      rw [ha r hr c hc, hb r hr' c hc']
      by_cases hl : Lt (.fin t) (relErr (.fin (f r c)) (.fin (g r c)))
      · exact ⟨.red, by simpa using (lt_relErr _ _ _).1 hl, by rw [if_pos hl], by rw [if_pos hl]⟩
      · have hn := (lt_relErr _ _ _).not.1 hl
        rw [if_neg hl, if_neg hl]
        by_cases hz : Fl.fin (f r c) ≠ .fin 0
        · exact ⟨.blue, by simpa using hn, by rw [if_pos hz], by rw [if_pos hz]⟩
        · exact ⟨.plain, by simpa using hn, by rw [if_neg hz], by rw [if_neg hz]⟩
    obtain ⟨s, s1, s2, s3⟩ := hcell
    refine ⟨s, s1, ?_⟩
    have ca : (cells a b a (.fin t) r)[c]? = some ⟨s, .fin (f r c)⟩ := by
      simp [cells, hc, s2]
    have cb : (cells a b b (.fin t) r)[c]? = some ⟨s, .fin (g r c)⟩ := by
      simp [cells, hc', s3]
    have la : (cells a b a (.fin t) r).length = a.cols := by simp [cells]
    by_cases h6 : a.cols > 6
    · rw [if_pos h6] at h2 ⊢
      rw [← h2]
      have l1 : ((List.range a.rows).map (cells a b a (.fin t))).length = a.rows := by simp
      constructor
      · rw [oneAfterAnother, List.getElem?_append_left (by rw [l1]; exact hr)]
        simp [hr, ca]
      · rw [oneAfterAnother, List.getElem?_append_right (by rw [l1]; omega), l1, Nat.add_sub_cancel_left]
        simp [hr', cb]
    · rw [if_neg h6] at h2 ⊢
      rw [← h2]
      have hrow : (sideBySide a b (.fin t))[r]? = some (cells a b a (.fin t) r ++ cells a b b (.fin t) r) := by
        simp [sideBySide, hr]
      rw [hrow, Option.bind_some, Option.bind_some]
      constructor
      · rw [List.getElem?_append_left (by rw [la]; exact hc), ca]
      · rw [List.getElem?_append_right (by rw [la]; omega), la, Nat.add_sub_cancel_left, cb]

/-- **C140** is violated: a number that is not one, or an infinite one, is close to every finite number.  Tests of matrices pass
whatever is expected there. -/
theorem C140_nan_violated (a b : Mat) (f : ℕ → ℕ → ℝ) (hb : Holds b f) (hr : a.rows = b.rows) (hc : a.cols = b.cols) (t : ℝ)
    (ht : 0 ≤ t)
    (h : ∀ r < a.rows, ∀ c < a.cols, a.at' r c = .nan ∨ a.at' r c = .pinf ∨ a.at' r c = .ninf ∨ a.at' r c = b.at' r c) :
    matrixClose a b (.fin t) = .success := by
  rw [close_iff]
  refine ⟨⟨hr, hc⟩, fun r h1 c h2 => ?_⟩
  have e := hb r (hr ▸ h1) c (hc ▸ h2)
  rcases h r h1 c h2 with h' | h' | h' | h' <;> rw [h', e]
  · rw [relErr_nan]; exact not_lt_nan _
  · rw [relErr_pinf]; exact not_lt_nan _
  · rw [relErr_ninf]; exact not_lt_nan _
  · rw [lt_relErr, not_not, Close, sub_self, abs_zero]
    positivity

/-- A matrix of numbers that are none is close to every matrix of its size, with every tolerance. -/
theorem C140_allnan_violated (a b : Mat) (tol : Fl) (hr : a.rows = b.rows) (hc : a.cols = b.cols)
    (h : ∀ r c, a.at' r c = .nan) : matrixClose a b tol = .success := by
  rw [close_iff]
  exact ⟨⟨hr, hc⟩, fun r _ c _ => by rw [h, relErr_nan]; exact not_lt_nan _⟩

/-- The tolerance is relative: matrices that are "equal" can be any distance apart. -/
theorem C140_scale (D : ℝ) : ∃ x y : ℝ, D ≤ |x - y| ∧ Close 1e-8 x y := by
  refine ⟨|D| * 1e9, |D| * 1e9 + |D|, ?_, ?_⟩
  · rw [show |D| * 1e9 - (|D| * 1e9 + |D|) = -|D| by ring, abs_neg, abs_abs]
    exact le_abs_self D
  · unfold Close
    rw [show |D| * 1e9 - (|D| * 1e9 + |D|) = -|D| by ring, abs_neg, abs_abs]
    have h1 : |D| * 1e9 ≤ max (max |(|D| * 1e9)| |(|D| * 1e9 + |D|)|) 1 :=
      le_trans (le_abs_self _) (le_trans (le_max_left _ _) (le_max_left _ _))
    have h2 := abs_nonneg D
    generalize max (max |(|D| * 1e9)| |(|D| * 1e9 + |D|)|) 1 = m at h1 ⊢
    norm_num at h1 ⊢
    linarith

/-! ## Quaternions -/

open scoped Classical in
theorem elements_fin {n : ℕ} (x y : Fin n → ℝ) (s t : ℝ) :
    elements (fun i => .fin (x i)) (fun i => .fin (y i)) (.fin s) (.fin t) = none ↔ ∀ i, |s * x i - y i| ≤ t := by
  rw [elements, List.find?_eq_none]
  refine ⟨fun h i => ?_, fun h i _ => ?_⟩
  · exact not_lt.1 fun hl => h i (List.mem_finRange i) (decide_eq_true (show Lt _ _ from hl))
  · intro hd
    exact absurd (of_decide_eq_true hd) (not_lt.2 (h i))

/-- The sign given by the real parts. -/
noncomputable def sg (x : ℝ) : ℝ := if 0 ≤ x then 1 else -1

theorem sign_fin (x : ℝ) : Fl.sign (.fin x) = .fin (sg x) := by
  unfold Fl.sign sg
  simp only [Lt, Fl.fin.injEq]
  congr 1
  rcases lt_trichotomy x 0 with h | rfl | h
  · simp [h, h.ne, h.not_gt, not_le.2 h]
  · simp
  · simp [h, h.le, h.not_gt]

theorem sg_sq (x : ℝ) : sg x * sg x = 1 := by unfold sg; split <;> norm_num

/-- **C140**: quaternions are accepted if and only if their elements are close after the first one has got the sign of the second. -/
theorem C140_quat (a b : Quat) (t : ℝ) : quatClose (elems a) (elems b) (.fin t) = none ↔
    |sg (a.w * b.w) * a.w - b.w| ≤ t ∧ |sg (a.w * b.w) * a.x - b.x| ≤ t ∧ |sg (a.w * b.w) * a.y - b.y| ≤ t ∧
      |sg (a.w * b.w) * a.z - b.z| ≤ t := by
  have h0 : (elems a 0).mul (elems b 0) = .fin (a.w * b.w) := by simp [elems, Fl.mul]
  rw [quatClose, h0, sign_fin]
  refine (elements_fin _ _ _ _).trans ?_
  constructor
  · intro h
    exact ⟨by simpa using h 0, by simpa using h 1, by simpa using h 2, by simpa using h 3⟩
  · rintro ⟨h1, h2, h3, h4⟩ i
    fin_cases i <;> simpa

theorem C140_dquat (a b : DQuat) (t : ℝ) : dquatClose (elems8 a) (elems8 b) (.fin t) = none ↔
    quatClose (elems a.r) (elems b.r) (.fin t) = none ∧
      |sg (a.r.w * b.r.w) * a.d.w - b.d.w| ≤ t ∧ |sg (a.r.w * b.r.w) * a.d.x - b.d.x| ≤ t ∧
      |sg (a.r.w * b.r.w) * a.d.y - b.d.y| ≤ t ∧ |sg (a.r.w * b.r.w) * a.d.z - b.d.z| ≤ t := by
  have h0 : (elems8 a 0).mul (elems8 b 0) = .fin (a.r.w * b.r.w) := by simp [elems8, Fl.mul]
  rw [dquatClose, h0, sign_fin, C140_quat]
  refine (elements_fin _ _ _ _).trans ?_
  constructor
  · intro h
    exact ⟨⟨by simpa using h 0, by simpa using h 1, by simpa using h 2, by simpa using h 3⟩,
      by simpa using h 4, by simpa using h 5, by simpa using h 6, by simpa using h 7⟩
  · rintro ⟨⟨h1, h2, h3, h4⟩, h5, h6, h7, h8⟩ i
    fin_cases i <;> simpa

theorem prod_close {p q p' q' t D E : ℝ} (hp : |p - p'| ≤ t) (hq : |q - q'| ≤ t) (hP : |p| ≤ D) (hQ : |q'| ≤ E) :
    |p * q - p' * q'| ≤ (D + E) * t := by
  have ht : 0 ≤ t := le_trans (abs_nonneg _) hp
  have e : p * q - p' * q' = p * (q - q') + (p - p') * q' := by ring
  rw [e]
  refine le_trans (abs_add_le _ _) ?_
  rw [abs_mul, abs_mul]
  have h1 : |p| * |q - q'| ≤ D * t := mul_le_mul hP hq (abs_nonneg _) (le_trans (abs_nonneg _) hP)
  have h2 : |p - p'| * |q'| ≤ t * E := mul_le_mul hp hQ (abs_nonneg _) ht
  linarith

theorem unit_abs {q : Quat} (h : q.sqNorm = 1) : |q.w| ≤ 1 ∧ |q.x| ≤ 1 ∧ |q.y| ≤ 1 ∧ |q.z| ≤ 1 := by
  unfold Quat.sqNorm at h
  refine ⟨?_, ?_, ?_, ?_⟩ <;> rw [abs_le] <;> constructor <;>
    nlinarith [sq_nonneg q.w, sq_nonneg q.x, sq_nonneg q.y, sq_nonneg q.z]

/-- **C140**: accepted unit quaternions have close matrices: no element differs by more than eight tolerances. -/
theorem C140_rotation (a b : Quat) (ha : a.sqNorm = 1) (hb : b.sqNorm = 1) (t : ℝ)
    (h : quatClose (elems a) (elems b) (.fin t) = none) (i j : Fin 3) : |a.R i j - b.R i j| ≤ 8 * t := by
  rw [C140_quat] at h
  generalize hs : sg (a.w * b.w) = s at h
  have ss : s * s = 1 := hs ▸ sg_sq _
  obtain ⟨hw, hx, hy, hz⟩ := h
  obtain ⟨b1, b2, b3, b4⟩ := unit_abs hb
  have sa : ∀ r : ℝ, |r| ≤ 1 → |s * r| ≤ 1 := by
    intro r hr
    have : |s| = 1 := by rw [← hs]; unfold sg; split <;> simp
    rw [abs_mul, this, one_mul]; exact hr
  obtain ⟨a1, a2, a3, a4⟩ := unit_abs ha
  have P : ∀ p q p' q' : ℝ, |s * p - p'| ≤ t → |s * q - q'| ≤ t → |p| ≤ 1 → |q'| ≤ 1 → |p * q - p' * q'| ≤ 2 * t := by
    intro p q p' q' h1 h2 h3 h4
    have := prod_close h1 h2 (sa p h3) h4
    rw [show s * p * (s * q) = p * q by linear_combination p * q * ss] at this
    linarith
  have ww := abs_le.1 (P _ _ _ _ hw hw a1 b1)
  have wx := abs_le.1 (P _ _ _ _ hw hx a1 b2)
  have wy := abs_le.1 (P _ _ _ _ hw hy a1 b3)
  have wz := abs_le.1 (P _ _ _ _ hw hz a1 b4)
  have xx := abs_le.1 (P _ _ _ _ hx hx a2 b2)
  have xy := abs_le.1 (P _ _ _ _ hx hy a2 b3)
  have xz := abs_le.1 (P _ _ _ _ hx hz a2 b4)
  have yy := abs_le.1 (P _ _ _ _ hy hy a3 b3)
  have yz := abs_le.1 (P _ _ _ _ hy hz a3 b4)
  have zz := abs_le.1 (P _ _ _ _ hz hz a4 b4)
  fin_cases i <;> fin_cases j <;> simp [Quat.R] <;> rw [abs_le] <;> constructor <;> linarith

/-- **C140**: accepted poses have close translations; `D` bounds the elements of the dual part. -/
theorem C140_translation (a b : DQuat) (hb : b.r.sqNorm = 1) (D t : ℝ)
    (hD : |a.d.w| ≤ D ∧ |a.d.x| ≤ D ∧ |a.d.y| ≤ D ∧ |a.d.z| ≤ D)
    (h : dquatClose (elems8 a) (elems8 b) (.fin t) = none) (i : Fin 3) :
    |a.translation i - b.translation i| ≤ 8 * (D + 1) * t := by
  rw [C140_dquat, C140_quat] at h
  generalize hs : sg (a.r.w * b.r.w) = s at h
  have ss : s * s = 1 := hs ▸ sg_sq _
  obtain ⟨⟨hw, hx, hy, hz⟩, kw, kx, ky, kz⟩ := h
  obtain ⟨b1, b2, b3, b4⟩ := unit_abs hb
  obtain ⟨d1, d2, d3, d4⟩ := hD
  have sa : ∀ r : ℝ, |r| ≤ D → |s * r| ≤ D := by
    intro r hr
    have : |s| = 1 := by rw [← hs]; unfold sg; split <;> simp
    rw [abs_mul, this, one_mul]; exact hr
  have P : ∀ p q p' q' : ℝ, |s * p - p'| ≤ t → |s * q - q'| ≤ t → |p| ≤ D → |q'| ≤ 1 → |p * q - p' * q'| ≤ (D + 1) * t := by
    intro p q p' q' h1 h2 h3 h4
    have := prod_close h1 h2 (sa p h3) h4
    rwa [show s * p * (s * q) = p * q by linear_combination p * q * ss] at this
  have wx := abs_le.1 (P _ _ _ _ kw hx d1 b2)
  have wy := abs_le.1 (P _ _ _ _ kw hy d1 b3)
  have wz := abs_le.1 (P _ _ _ _ kw hz d1 b4)
  have xw := abs_le.1 (P _ _ _ _ kx hw d2 b1)
  have xy := abs_le.1 (P _ _ _ _ kx hy d2 b3)
  have xz := abs_le.1 (P _ _ _ _ kx hz d2 b4)
  have yw := abs_le.1 (P _ _ _ _ ky hw d3 b1)
  have yx := abs_le.1 (P _ _ _ _ ky hx d3 b2)
  have yz := abs_le.1 (P _ _ _ _ ky hz d3 b4)
  have zw := abs_le.1 (P _ _ _ _ kz hw d4 b1)
  have zx := abs_le.1 (P _ _ _ _ kz hx d4 b2)
  have zy := abs_le.1 (P _ _ _ _ kz hy d4 b3)
  have e : 8 * (D + 1) * t = 8 * ((D + 1) * t) := by ring
  rw [e]
  generalize (D + 1) * t = u at *
  fin_cases i <;> simp [DQuat.translation, Quat.otimes, Quat.inverse, Quat.bar] <;> rw [abs_le] <;> constructor <;> linarith

/-- **C140**: a quaternion is accepted for itself, and for its negative unless it is a half turn. -/
theorem C140_sign (a : Quat) (t : ℝ) (ht : 0 ≤ t) : quatClose (elems a) (elems a) (.fin t) = none ∧
    (a.w ≠ 0 → quatClose (elems a) (elems (a.smul (-1))) (.fin t) = none) := by
  constructor
  · have : sg (a.w * a.w) = 1 := if_pos (mul_self_nonneg _)
    rw [C140_quat, this]
    simp [ht]
  · intro hw
    have : sg (a.w * (-1 * a.w)) = -1 := if_neg (by have := mul_self_pos.2 hw; linarith)
    rw [C140_quat]
    simp only [Quat.smul, this]
    simp [ht]

/-- **C140** is violated: no half turn is accepted for its negative, which is the same rotation. -/
theorem C140_halfturn_violated (a : Quat) (ha : a.sqNorm = 1) (hw : a.w = 0) (t : ℝ) (ht : t < 1) :
    (a.smul (-1)).R = a.R ∧ quatClose (elems a) (elems (a.smul (-1))) (.fin t) ≠ none := by
  constructor
  · ext i j
    fin_cases i <;> fin_cases j <;> simp [Quat.R, Quat.smul]
  · intro h
    rw [C140_quat] at h
    have hs : sg (a.w * (a.smul (-1)).w) = 1 := if_pos (by simp [hw])
    rw [hs] at h
    obtain ⟨-, h2, h3, h4⟩ := h
    simp only [Quat.smul, one_mul, neg_mul, sub_neg_eq_add] at h2 h3 h4
    obtain ⟨l2, u2⟩ := abs_le.1 h2
    obtain ⟨l3, u3⟩ := abs_le.1 h3
    obtain ⟨l4, u4⟩ := abs_le.1 h4
    unfold Quat.sqNorm at ha
    rw [hw] at ha
    nlinarith

/-- **C140** is violated: unit quaternions as near to each other as one likes are refused, if their real parts lie on both sides of
zero. -/
theorem C140_edge_violated (ε : ℝ) (hε : 0 < ε) (t : ℝ) (ht : t < 1) : ∃ a b : Quat, a.sqNorm = 1 ∧ b.sqNorm = 1 ∧
    |a.w - b.w| ≤ ε ∧ a.x = b.x ∧ a.y = b.y ∧ a.z = b.z ∧ quatClose (elems a) (elems b) (.fin t) ≠ none := by
  set s := min (ε / 2) (1 / 2) with hs
  have s0 : 0 < s := lt_min (by linarith) (by norm_num)
  have s1 : s ≤ 1 / 2 := min_le_right _ _
  have s2 : s ≤ ε / 2 := min_le_left _ _
  have h1 : 0 ≤ 1 - s * s := by nlinarith
  have hc := Real.mul_self_sqrt h1
  have hc0 := Real.sqrt_nonneg (1 - s * s)
  set c := Real.sqrt (1 - s * s)
  refine ⟨⟨s, c, 0, 0⟩, ⟨-s, c, 0, 0⟩, ?_, ?_, ?_, rfl, rfl, rfl, ?_⟩
  · simp only [Quat.sqNorm]; linarith
  · simp only [Quat.sqNorm]; linarith
  · simp only
    rw [abs_of_nonneg (by linarith)]; linarith
  · intro h
    rw [C140_quat] at h
    have hg : sg (s * -s) = -1 := if_neg (by nlinarith)
    simp only [hg] at h
    obtain ⟨-, h2, -, -⟩ := h
    obtain ⟨l2, u2⟩ := abs_le.1 h2
    nlinarith

open scoped Classical in
/-- **C140** is violated: a quaternion of numbers that are none is accepted for every one. -/
theorem C140_nanquat_violated (b : Fin 4 → Fl) (tol : Fl) : quatClose (fun _ => .nan) b tol = none := by
  rw [quatClose, elements, List.find?_eq_none]
  intro i _
  have h1 : ∀ s : Fl, s.mul .nan = .nan := by intro s; cases s <;> rfl
  have h2 : ∀ y : Fl, Fl.nan.sub y = .nan := by intro y; cases y <;> rfl
  intro hd
  have hd := of_decide_eq_true hd
  rw [h1, h2] at hd
  exact not_lt_nan _ hd

/-- The whole of **C140** for matrices: what is accepted is close. -/
def C140_statement : Prop := ∀ (a b : Mat) (t : ℝ), 0 ≤ t → matrixClose a b (.fin t) = .success →
  ∀ r < a.rows, ∀ c < a.cols, ∃ x y, a.at' r c = .fin x ∧ b.at' r c = .fin y ∧ Close t x y

theorem C140_statement_false : ¬ C140_statement := by
  intro h
  have := h ⟨1, 1, fun _ _ => .nan⟩ ⟨1, 1, fun _ _ => .fin 0⟩ 0 le_rfl (C140_allnan_violated _ _ _ rfl rfl fun _ _ => rfl)
    0 one_pos 0 one_pos
  obtain ⟨x, y, hx, -⟩ := this
  exact absurd hx (by simp)

example : Holds ⟨1, 2, fun _ c => .fin c⟩ (fun _ c => c) := fun _ _ _ _ => rfl

/-! ## Random matrices -/

theorem fill_row (f : ℝ → ℝ) (u : ℕ → ℝ) (i : ℕ) (out : ℕ → ℕ → ℝ) (k n : ℕ) :
    (List.range n).foldl (fun (s : (ℕ → ℕ → ℝ) × ℕ) j =>
      (fun r c => if r = i ∧ c = j then f (u s.2) else s.1 r c, s.2 + 1)) (out, k) =
      (fun r c => if r = i ∧ c < n then f (u (k + c)) else out r c, k + n) := by
  induction n with
  | zero => simp
  | succ n ih =>
    rw [List.range_succ, List.foldl_append, ih]
    simp only [List.foldl_cons, List.foldl_nil, Prod.mk.injEq]
    refine ⟨?_, by omega⟩
    funext r c
    by_cases h : r = i ∧ c = n
    · simp [h]
    · rw [if_neg h]
      by_cases h' : r = i ∧ c < n
      · rw [if_pos h', if_pos ⟨h'.1, by omega⟩]
      · rw [if_neg h', if_neg (by omega)]

/-- **C141**: every element is set once, from a number of the sequence of its own, row after row. -/
theorem C141_fill (f : ℝ → ℝ) (u : ℕ → ℝ) (cols : ℕ) (out : ℕ → ℕ → ℝ) (k rows : ℕ) :
    fill f u cols out k rows =
      (fun r c => if r < rows ∧ c < cols then f (u (k + r * cols + c)) else out r c, k + rows * cols) := by
  unfold fill
  induction rows with
  | zero => simp
  | succ n ih =>
    rw [List.range_succ, List.foldl_append, ih]
    simp only [List.foldl_cons, List.foldl_nil]
    rw [fill_row]
    simp only [Prod.mk.injEq]
    refine ⟨?_, by rw [Nat.succ_mul]; omega⟩
    funext r c
    by_cases h : r = n ∧ c < cols
    · rw [if_pos h, if_pos ⟨by omega, h.2⟩, h.1]
    · rw [if_neg h]
      by_cases h' : r < n ∧ c < cols
      · rw [if_pos h', if_pos ⟨by omega, h'.2⟩]
      · rw [if_neg h', if_neg (by omega)]

/-- **C141**: the numbers of `randomNormal`. -/
theorem C141_normal (n : ℕ → ℝ) (rows cols : ℕ) (out : ℕ → ℕ → ℝ) (k : ℕ) :
    (∀ r < rows, ∀ c < cols, (randomNormal n rows cols out k).1 r c = n (k + r * cols + c)) ∧
      (randomNormal n rows cols out k).2 = k + rows * cols := by
  rw [randomNormal, C141_fill]
  refine ⟨fun r hr c hc => ?_, rfl⟩
  simp [hr, hc]

/-- **C141**: the numbers of `randomUniform` lie between the bounds. -/
theorem C141_uniform_partial (u : ℕ → ℝ) (hu : ∀ k, 0 ≤ u k ∧ u k < 1) (lo hi : ℝ) (h : lo ≤ hi) (hw : hi - lo < 2 ^ 31)
    (rows cols : ℕ) (out : ℕ → ℕ → ℝ) (k : ℕ) : ∃ m k', randomUniform u lo hi rows cols out k = some (m, k') ∧
      k' = k + rows * cols ∧ ∀ r < rows, ∀ c < cols, m r c = ⌊hi - lo⌋ * u (k + r * cols + c) + lo ∧
        lo ≤ m r c ∧ m r c ≤ hi ∧ (lo < hi → m r c < hi) := by
  have h0 : 0 ≤ hi - lo := by linarith
  have hf0 : 0 ≤ ⌊hi - lo⌋ := Int.floor_nonneg.2 h0
  have hfl : (⌊hi - lo⌋ : ℝ) ≤ hi - lo := Int.floor_le _
  have hi31 : ⌊hi - lo⌋ < 2 ^ 31 := by
    rw [Int.floor_lt]; norm_num at hw ⊢; exact hw
  have ht : toInt (hi - lo) = some ⌊hi - lo⌋ := by
    unfold toInt
    simp only [if_pos h0]
    rw [if_pos ⟨by omega, hi31⟩]
  refine ⟨_, _, by rw [randomUniform, ht, Option.map_some, C141_fill], rfl, fun r hr c hc => ?_⟩
  simp only [hr, hc, and_self, if_true, true_and]
  obtain ⟨u0, u1⟩ := hu (k + r * cols + c)
  have hp : (0 : ℝ) ≤ ⌊hi - lo⌋ := by exact_mod_cast hf0
  refine ⟨by nlinarith, by nlinarith, fun hlt => ?_⟩
  rcases hp.eq_or_lt with hz | hz
  · rw [← hz]; linarith
  · nlinarith

/-- **C141** is violated: the width is cut to an integer; bounds less than one apart give nothing but the lower one. -/
theorem C141_width_violated (u : ℕ → ℝ) (lo hi : ℝ) (h : lo ≤ hi) (h1 : hi < lo + 1) (rows cols : ℕ) (out : ℕ → ℕ → ℝ) (k : ℕ) :
    ∃ m k', randomUniform u lo hi rows cols out k = some (m, k') ∧ ∀ r < rows, ∀ c < cols, m r c = lo := by
  have hf : ⌊hi - lo⌋ = 0 := Int.floor_eq_zero_iff.2 ⟨by linarith, by linarith⟩
  have ht : toInt (hi - lo) = some 0 := by
    unfold toInt
    simp only [if_pos (show 0 ≤ hi - lo by linarith), hf]
    norm_num
  refine ⟨_, _, by rw [randomUniform, ht, Option.map_some, C141_fill], fun r hr c hc => ?_⟩
  simp [hr, hc]

/-- **C141** is violated: bounds too far apart are undefined behaviour. -/
theorem C141_overflow_violated (u : ℕ → ℝ) (lo hi : ℝ) (h : lo + 2 ^ 31 ≤ hi) (rows cols : ℕ) (out : ℕ → ℕ → ℝ) (k : ℕ) :
    randomUniform u lo hi rows cols out k = none := by
  have h0 : 0 ≤ hi - lo := by
    have : (0 : ℝ) ≤ 2 ^ 31 := by positivity
    linarith
  have hf : (2 ^ 31 : ℤ) ≤ ⌊hi - lo⌋ := by
    rw [Int.le_floor]; push_cast; linarith
  have ht : toInt (hi - lo) = none := by
    unfold toInt
    simp only [if_pos h0]
    rw [if_neg (by omega)]
  rw [randomUniform, ht, Option.map_none]

/-- The whole of **C141**: every number between the bounds can be the result. -/
def C141_statement : Prop := ∀ lo hi v : ℝ, lo ≤ v → v < hi → ∃ u : ℕ → ℝ, (∀ k, 0 ≤ u k ∧ u k < 1) ∧
  ∃ m k', randomUniform u lo hi 1 1 (fun _ _ => 0) 0 = some (m, k') ∧ m 0 0 = v

theorem C141_statement_false : ¬ C141_statement := by
  intro h
  obtain ⟨u, -, m, k', h1, h2⟩ := h 0 (1 / 2) (1 / 4) (by norm_num) (by norm_num)
  obtain ⟨m', k'', h3, h4⟩ := C141_width_violated u 0 (1 / 2) (by norm_num) (by norm_num) 1 1 (fun _ _ => 0) 0
  rw [h1, Option.some.injEq, Prod.mk.injEq] at h3
  have := h4 0 one_pos 0 one_pos
  rw [← h3.1, h2] at this
  norm_num at this

end Verif.Props.TestHelpers
