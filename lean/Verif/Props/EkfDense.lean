import Verif.Lemmas.EkfDense
/-!
# C111: the dense forms of the generated classes agree with their blocks

The generated filter keeps its error state, covariances and Jacobians in named blocks, some with a number of active elements
that changes.  The tests, and everything that factorises a covariance, use the dense forms.
-/
namespace Verif.Props.EkfDense

open Verif.Model.EkfDense Verif.Spec.EkfDense Verif.Lemmas.EkfDense

variable {α : Type}

/-- C111 for the error state and the input: for every configuration and all counters that fit the buffers, the dense vector
has the size of all active elements and holds block after block. -/
theorem C111_vector (cfg : List St) (v : Env) (hfit : Fits (organize cfg) v) (e : ℕ → ℕ → Option α) :
    ∃ x, errorDense (organize cfg) v e = some x ∧ IsVec (dims (organize cfg) v) e x :=
  errorDense_eq (fixedFirst_organize cfg) hfit e

/-- Nothing but the blocks is in the vector. -/
theorem C111_vector_all (cfg : List St) (v : Env) (hfit : Fits (organize cfg) v) (e : ℕ → ℕ → Option α) :
    ∃ x, errorDense (organize cfg) v e = some x ∧ ∀ p < x.1, ∃ i, ∃ h : i < (dims (organize cfg) v).length,
      ∃ k < (dims (organize cfg) v)[i], p = off (dims (organize cfg) v) i + k ∧ x.2 p = e i k := by
  obtain ⟨x, hx, h1, h2⟩ := C111_vector cfg v hfit e
  refine ⟨x, hx, fun p hp => ?_⟩
  obtain ⟨i, h, k, hk, e⟩ := off_cover _ p (h1 ▸ hp)
  exact ⟨i, h, k, hk, e, e ▸ h2 i h k hk⟩

/-- `fromDense` after `dense` with full buffers gives every entry back. -/
theorem C111_vector_back (cfg : List St) (e : ℕ → ℕ → Option α) (v : Env)
    (hv : ∀ i (h : i < (organize cfg).length), (organize cfg)[i].var → v i = (organize cfg)[i].bundle) :
    ∃ x, errorDense (organize cfg) v e = some x ∧ x.1 = ((organize cfg).map St.dx).sum ∧
      ∀ i (h : i < (organize cfg).length) k, k < (organize cfg)[i].dx → fromDense (organize cfg) x.2 i k = e i k := by
  obtain ⟨x, hx, h1, h2⟩ := C111_vector cfg v (fun i h hvar => (hv i h hvar).le) e
  have hd : dims (organize cfg) v = (organize cfg).map St.dx := by
    refine List.ext_getElem (by simp [dims]) fun i hi hi' => ?_
    rw [getElem_dims, List.getElem_map]
    have hi : i < (organize cfg).length := by simpa using hi'
    unfold dimOf St.dx
    split
    · rename_i h; rw [hv i hi h]
    · rfl
  refine ⟨x, hx, by rw [h1, hd], fun i h k hk => ?_⟩
  have := h2 i (by rw [length_dims]; exact h) k (by simp only [hd, List.getElem_map]; exact hk)
  rw [hd] at this
  unfold fromDense
  rw [← this, off, List.map_take]

/-- The arguments of the getters of two different variable states are passed in the order of the declaration, or their
counters are equal. -/
def Agree (rows cols : List St) (sw : Orders) (vr vc : Env) : Prop :=
  ∀ i j, sw i j = true → i ≠ j → ∀ (hi : i < rows.length) (hj : j < cols.length), rows[i].var → cols[j].var → vr i = vc j

/-- C111 for the covariance, for counters and orders that agree. -/
theorem C111_covariance_partial (cfg : List St) (hne : organize cfg ≠ []) (sw : Orders) (v : Env) (hfit : Fits (organize cfg) v)
    (hagree : Agree (organize cfg) (organize cfg) sw v v) (P : ℕ → ℕ → ℕ → ℕ → Option α) (z : α) :
    ∃ x, covDense (organize cfg) sw v P z = some x ∧
      IsMat (dims (organize cfg) v) (dims (organize cfg) v) (sym P) x ∧ ∀ p q, x.2.2 p q = x.2.2 q p := by
  have hff := fixedFirst_organize cfg
  obtain ⟨m, hm, hval⟩ := fillM_eq hff hff hne (fun r c => decide (c < r)) (fun _ _ => .block) (sw := sw) hfit hfit P
    (fun _ _ => none) z (fun i j _ => hagree i j)
  refine ⟨_, by unfold covDense; rw [hm]; rfl, ⟨rfl, rfl, ?_⟩, ?_⟩
  · intro i hi j hj a b ha hb
    simp only
    unfold sym
    rcases Nat.lt_trichotomy i j with hl | he | hl
    · have h1 := off_mono (dims (organize cfg) v) (i := i + 1) (j := j) hl
      rw [off_succ _ i hi] at h1
      rw [if_neg (by omega), if_pos (Or.inl hl)]
      exact hval i hi j hj a b ha hb (by simp; omega)
    · subst he
      by_cases hab : a ≤ b
      · rw [if_pos (Or.inr ⟨rfl, hab⟩)]
        by_cases hba : b ≤ a
        · have : a = b := by omega
          subst this
          rw [if_pos le_rfl]
          exact hval i hi i hj a a ha hb (by simp)
        · rw [if_neg (by omega)]
          exact hval i hi i hj a b ha hb (by simp)
      · rw [if_pos (by omega : off (dims (organize cfg) v) i + b ≤ off (dims (organize cfg) v) i + a),
          if_neg (by omega : ¬ (i < i ∨ i = i ∧ a ≤ b))]
        exact hval i hj i hi b a hb ha (by simp)
    · have h1 := off_mono (dims (organize cfg) v) (i := j + 1) (j := i) hl
      rw [off_succ _ j hj] at h1
      rw [if_pos (by omega), if_neg (by omega)]
      exact hval j hj i hi b a hb ha (by simp; omega)
  · intro p q
    simp only
    rcases Nat.lt_trichotomy p q with h | h | h
    · rw [if_neg (by omega), if_pos (by omega)]
    · subst h; rfl
    · rw [if_pos (by omega), if_neg (by omega)]

/-- With at most one variable state the orders do not matter. -/
theorem C111_covariance_one (cfg : List St) (hne : organize cfg ≠ []) (sw : Orders) (v : Env) (hfit : Fits (organize cfg) v)
    (hone : ∀ i j (hi : i < (organize cfg).length) (hj : j < (organize cfg).length), (organize cfg)[i].var →
      (organize cfg)[j].var → i = j) (P : ℕ → ℕ → ℕ → ℕ → Option α) (z : α) :
    ∃ x, covDense (organize cfg) sw v P z = some x ∧
      IsMat (dims (organize cfg) v) (dims (organize cfg) v) (sym P) x ∧ ∀ p q, x.2.2 p q = x.2.2 q p :=
  C111_covariance_partial cfg hne sw v hfit (fun i j _ hij hi hj h1 h2 => absurd (hone i j hi hj h1 h2) hij) P z

/-- C111 for the process and input noise: a diagonal matrix, the entries of a variable state repeated for every element. -/
theorem C111_noise (cfg : List St) (hne : organize cfg ≠ []) (v : Env) (hfit : Fits (organize cfg) v) (q : ℕ → ℕ → Option α) (z : α) :
    ∃ x, diagDense (organize cfg) v q z = some x ∧
      IsMat (dims (organize cfg) v) (dims (organize cfg) v) (diagonal (organize cfg) q z) x := by
  have hff := fixedFirst_organize cfg
  obtain ⟨m, hm, hval⟩ := fillM_eq hff hff hne (fun _ _ => false) (fun r c => if c = r then .diag else .zero)
    (sw := fun _ _ => false) hfit hfit (fun _ _ _ _ => none) q z (fun i j _ => by
      unfold SrcOk
      by_cases h : j = i
      · subst h; simp
      · simp [h])
  refine ⟨_, hm, rfl, rfl, fun i hi j hj a b ha hb => ?_⟩
  refine (hval i hi j hj a b ha hb rfl).trans ?_
  unfold value diagonal
  by_cases h : j = i
  · subst h; simp
  · simp [h, Ne.symm h]

/-- C111 for Jacobians, for counters and orders that agree: blocks that are not used are zero. -/
theorem C111_jacobian_partial (rcfg ccfg : List St) (hne : organize rcfg ≠ []) (used : ℕ → ℕ → Bool) (sw : Orders) (vr vc : Env)
    (hfr : Fits (organize rcfg) vr) (hfc : Fits (organize ccfg) vc) (hagree : Agree (organize rcfg) (organize ccfg) sw vr vc)
    (J : ℕ → ℕ → ℕ → ℕ → Option α) (z : α) :
    ∃ x, jacDense (organize rcfg) (organize ccfg) used sw vr vc J z = some x ∧
      IsMat (dims (organize rcfg) vr) (dims (organize ccfg) vc) (fun i j a b => if used i j then J i j a b else some z) x := by
  obtain ⟨m, hm, hval⟩ := fillM_eq (fixedFirst_organize rcfg) (fixedFirst_organize ccfg) hne (fun _ _ => false)
    (fun r c => if used r c then .block else .zero) (sw := sw) hfr hfc J (fun _ _ => none) z (fun i j _ => by
      unfold SrcOk
      by_cases h : used i j
      · simpa [h] using hagree i j
      · simp [h])
  refine ⟨_, hm, rfl, rfl, fun i hi j hj a b ha hb => ?_⟩
  refine (hval i hi j hj a b ha hb rfl).trans ?_
  unfold value
  by_cases h : used i j
  · simp [h]
  · simp [h]

/-! ### The order of the states -/

theorem scan_text_fixed : ∀ (l : List (St × ℕ)) (f : Env → ℕ), (∃ s ∈ l, s.1.var = false) → scan l (.text f) = none := by
  intro l
  induction l with
  | nil => intro f h; obtain ⟨s, hs, _⟩ := h; simp at hs
  | cons s l ih =>
    intro f h
    obtain ⟨s, i⟩ := s
    by_cases hv : s.var = true
    · have ha : accumulate (.text f) (dim s i) = some (.text fun v => f v + v i * s.base) := by
        unfold dim; rw [if_pos hv]; rfl
      have hl : ∃ s ∈ l, s.1.var = false := by
        obtain ⟨t, ht, htv⟩ := h
        rcases List.mem_cons.1 ht with e | ht
        · subst e; simp [hv] at htv
        · exact ⟨t, ht, htv⟩
      simp [scan, ha, ih _ hl]
    · have ha : accumulate (.text f) (dim s i) = none := by
        unfold dim; rw [if_neg hv]; rfl
      simp [scan, ha]

/-- A fixed state behind a variable one makes the generator raise: putting the fixed states first is needed. -/
theorem C111_order (f g : List St) (s t : St) (hf : ∀ s ∈ f, s.var = false) (hs : s.var = true) (ht : t.var = false) (ht' : t ∈ g)
    (sw : Orders) (v : Env) (P : ℕ → ℕ → ℕ → ℕ → Option α) (z : α) : covDense (f ++ s :: g) sw v P z = none := by
  have h : ∀ (f : List St) (k n : ℕ), (∀ s ∈ f, s.var = false) → scan ((f ++ s :: g).zipIdx k) (.int n) = none := by
    intro f
    induction f with
    | nil =>
      intro k n _
      have ha : accumulate (.int n) (dim s k) = some (.text fun v => n + v k * s.base) := by
        unfold dim; rw [if_pos hs]; rfl
      obtain ⟨i, hi, e⟩ := List.mem_iff_getElem.1 ht'
      have := scan_text_fixed (g.zipIdx (k + 1)) (fun v => n + v k * s.base)
        ⟨(t, k + 1 + i), List.mem_iff_getElem.2 ⟨i, by simpa using hi, by simp [e]⟩, ht⟩
      simp [List.zipIdx_cons, scan, ha, this]
    | cons a f ih =>
      intro k n hf
      have hv : a.var = false := hf a (by simp)
      have ha : accumulate (.int n) (dim a k) = some (.int (n + a.base)) := by
        unfold dim; rw [if_neg (by simp [hv])]; rfl
      simp [List.zipIdx_cons, scan, ha, ih (k + 1) (n + a.base) fun s hs => hf s (by simp [hs])]
  unfold covDense fillM denseMatrix
  rw [if_neg (by simp), h f 0 0 hf]
  rfl

/-! ### The order of the arguments -/

/-- Two variable states whose getter is declared with one order of the counters and called with the other: for different
counters of elements of one size, the block does not fit. -/
theorem C111_arguments_violated (b m n x y : ℕ) (hb : 0 < b) (hxy : x ≠ y) (P : ℕ → ℕ → ℕ → ℕ → Option α) (z : α)
    (v : Env) (hv0 : v 0 = x) (hv1 : v 1 = y) :
    covDense (organize [⟨true, b, m⟩, ⟨true, b, n⟩]) (fun _ _ => true) v P z = none := by
  have hxb : b * y ≠ x * b := by
    rw [Nat.mul_comm x b]
    exact fun h => hxy (Nat.eq_of_mul_eq_mul_left hb h).symm
  have h2 : ∀ M, runM [⟨true, b, m⟩, ⟨true, b, n⟩] [⟨true, b, m⟩, ⟨true, b, n⟩] (fun _ _ => true) v v P (fun _ _ => none) z
      (0 + x * b + y * b) (0 + x * b + y * b) M
      ⟨0, 1, .int 0, .text fun v => 0 + v 0 * b, .text fun v => v 0 * b, .text fun v => v 1 * b, .block⟩ = none := by
    intro M
    simp [runM, getterSize, PyNum.eval, hv0, hv1, hxb]
  have hd : denseMatrix [⟨true, b, m⟩, ⟨true, b, n⟩] [⟨true, b, m⟩, ⟨true, b, n⟩] (fun r c => decide (c < r)) (fun _ _ => .block) =
      some ([⟨0, 0, .int 0, .int 0, .text fun v => v 0 * b, .text fun v => v 0 * b, .block⟩,
        ⟨0, 1, .int 0, .text fun v => 0 + v 0 * b, .text fun v => v 0 * b, .text fun v => v 1 * b, .block⟩,
        ⟨1, 1, .text fun v => 0 + v 0 * b, .text fun v => 0 + v 0 * b, .text fun v => v 1 * b, .text fun v => v 1 * b, .block⟩],
        .text fun v => 0 + v 0 * b + v 1 * b, .text fun v => 0 + v 0 * b + v 1 * b) := rfl
  unfold covDense fillM
  have ho : organize [⟨true, b, m⟩, ⟨true, b, n⟩] = [⟨true, b, m⟩, ⟨true, b, n⟩] := rfl
  rw [ho, hd]
  simp only [Option.bind_eq_bind, Option.bind_some, List.foldlM_cons, PyNum.eval, hv0, hv1]
  cases runM [⟨true, b, m⟩, ⟨true, b, n⟩] [⟨true, b, m⟩, ⟨true, b, n⟩] (fun _ _ => true) v v P (fun _ _ => none) z
      (0 + x * b + y * b) (0 + x * b + y * b) (fun _ _ => none)
      ⟨0, 0, .int 0, .int 0, .text fun v => v 0 * b, .text fun v => v 0 * b, .block⟩ with
  | none => rfl
  | some M => rw [Option.bind_some, h2]; rfl

/-! ### `size()` -/

/-- What `size()` counts for a state. -/
def counted (s : St) (n : ℕ) : ℕ := if s.var then n else s.base

theorem stateSize_eval (l : List (St × ℕ)) : ∀ acc n, l.foldlM (fun acc (s : St × ℕ) =>
      accumulate acc (if s.1.var then .text fun v => v s.2 else .int s.1.dx)) acc = some n →
    ∀ v, n.eval v = acc.eval v + (l.map fun s => counted s.1 (v s.2)).sum := by
  induction l with
  | nil => intro acc n h v; simp only [List.foldlM_nil, Option.pure_def, Option.some.injEq] at h; subst h; simp
  | cons s l ih =>
    intro acc n h v
    rw [List.foldlM_cons] at h
    cases ha : accumulate acc (if s.1.var then .text fun v => v s.2 else .int s.1.dx) with
    | none => rw [ha] at h; simp at h
    | some acc' =>
      rw [ha] at h
      rw [ih acc' n h v, accumulate_eval ha v, List.map_cons, List.sum_cons, ← Nat.add_assoc]
      congr 2
      unfold counted
      split
      · rfl
      · rename_i hv; simp [PyNum.eval, St.dx, hv]

theorem stateSize_some {sts : List St} (h : FixedFirst sts) : ∃ n, stateSize sts = some n := by
  have hvar : ∀ (l : List (St × ℕ)) (acc : PyNum), (∀ s ∈ l, s.1.var = true) → ∃ n, l.foldlM (fun acc (s : St × ℕ) =>
      accumulate acc (if s.1.var then .text fun v => v s.2 else .int s.1.dx)) acc = some n := by
    intro l
    induction l with
    | nil => exact fun acc _ => ⟨acc, rfl⟩
    | cons s l ih =>
      intro acc hl
      have ha : accumulate acc (if s.1.var then .text fun v => v s.2 else .int s.1.dx) = some (.text fun v => acc.eval v + v s.2) := by
        rw [if_pos (hl s (by simp))]; cases acc <;> rfl
      obtain ⟨n, hn⟩ := ih (.text fun v => acc.eval v + v s.2) fun t ht => hl t (by simp [ht])
      exact ⟨n, by rw [List.foldlM_cons, ha]; exact hn⟩
  obtain ⟨f, g, e, hf, hg⟩ := h
  unfold stateSize
  rw [zipIdx_split e, List.foldlM_append]
  have hfix : ∀ (l : List (St × ℕ)) (k : ℕ), (∀ s ∈ l, s.1.var = false) → ∃ n, l.foldlM (fun acc (s : St × ℕ) =>
      accumulate acc (if s.1.var then .text fun v => v s.2 else .int s.1.dx)) (.int k) = some n := by
    intro l
    induction l with
    | nil => exact fun k _ => ⟨.int k, rfl⟩
    | cons s l ih =>
      intro k hl
      have ha : accumulate (.int k) (if s.1.var then .text fun v => v s.2 else .int s.1.dx) = some (.int (k + s.1.dx)) := by
        rw [if_neg (by simp [hl s (by simp)])]; rfl
      obtain ⟨n, hn⟩ := ih (k + s.1.dx) fun t ht => hl t (by simp [ht])
      exact ⟨n, by rw [List.foldlM_cons, ha]; exact hn⟩
  obtain ⟨n, hn⟩ := hfix f.zipIdx 0 fun s hs => hf _ (List.fst_mem_of_mem_zipIdx hs)
  rw [hn]
  exact hvar _ n fun s hs => hg _ (List.fst_mem_of_mem_zipIdx hs)

theorem sum_le_iff {β : Type} (f g : β → ℕ) (l : List β) (h : ∀ x ∈ l, f x ≤ g x) :
    (l.map f).sum ≤ (l.map g).sum ∧ ((l.map f).sum = (l.map g).sum ↔ ∀ x ∈ l, f x = g x) := by
  induction l with
  | nil => simp
  | cons a l ih =>
    obtain ⟨h1, h2⟩ := ih fun x hx => h x (by simp [hx])
    have ha := h a (by simp)
    simp only [List.map_cons, List.sum_cons, List.forall_mem_cons]
    exact ⟨by omega, ⟨fun e => ⟨by omega, h2.1 (by omega)⟩, fun e => by rw [e.1, h2.2 e.2]⟩⟩

/-- `State::size()` is the size of the dense error state exactly when every variable state with active elements has elements of
size one; else it is too small. -/
theorem C111_size (cfg : List St) (hb : ∀ s ∈ organize cfg, 0 < s.base) (v : Env) : ∃ n, stateSize (organize cfg) = some n ∧
    n.eval v ≤ (dims (organize cfg) v).sum ∧
    (n.eval v = (dims (organize cfg) v).sum ↔
      ∀ i (h : i < (organize cfg).length), (organize cfg)[i].var → v i = 0 ∨ (organize cfg)[i].base = 1) := by
  obtain ⟨n, hn⟩ := stateSize_some (fixedFirst_organize cfg)
  have he := stateSize_eval _ _ _ hn v
  rw [PyNum.eval, Nat.zero_add] at he
  have hle : ∀ x ∈ (organize cfg).zipIdx, counted x.1 (v x.2) ≤ dimOf x.1 (v x.2) := by
    intro x hx
    have := hb x.1 (List.fst_mem_of_mem_zipIdx hx)
    unfold counted dimOf
    split
    · exact Nat.le_mul_of_pos_right _ this
    · exact le_rfl
  obtain ⟨h1, h2⟩ := sum_le_iff (fun x : St × ℕ => counted x.1 (v x.2)) (fun x => dimOf x.1 (v x.2)) _ hle
  refine ⟨n, hn, by rw [he]; exact h1, ?_⟩
  rw [he]
  refine h2.trans ⟨fun h i hi hv => ?_, fun h x hx => ?_⟩
  · have := h ((organize cfg)[i], i) (List.mem_iff_getElem.2 ⟨i, by simpa using hi, by simp⟩)
    simp only [counted, dimOf, hv, if_true] at this
    rcases Nat.eq_zero_or_pos (v i) with h0 | h0
    · exact Or.inl h0
    · right
      have h3 : v i * 1 = v i * (organize cfg)[i].base := by rw [Nat.mul_one]; exact this
      exact (Nat.eq_of_mul_eq_mul_left h0 h3).symm
  · obtain ⟨i, hi, rfl⟩ := List.mem_iff_getElem.1 hx
    have hi' : i < (organize cfg).length := by simpa using hi
    simp only [List.getElem_zipIdx, Nat.zero_add]
    unfold counted dimOf
    split
    · rename_i hv
      rcases h i hi' hv with h0 | h0
      · rw [h0, Nat.zero_mul]
      · rw [h0, Nat.mul_one]
    · rfl

/-- `variable_quat: Var<Quat, 5>` (example_ekf.yaml 22): one active element of size 3, and `size()` says 1. -/
theorem C111_size_violated : ∃ n, stateSize (organize [⟨true, 3, 5⟩]) = some n ∧ n.eval (fun _ => 1) = 1 ∧
    (dims (organize [⟨true, 3, 5⟩]) fun _ => 1).sum = 3 := ⟨_, rfl, rfl, rfl⟩

/-! ### The covariance from a process covariance -/

/-- `Covariance(process).dense(...)`: for every configuration with two nonempty states and whatever the process covariance, the
entries between the states are not initialised, while those of `process.dense(...)` are zero. -/
theorem C111_from_process_violated (cfg : List St) (sw : Orders) (v : Env) (hfit : Fits (organize cfg) v)
    (hagree : Agree (organize cfg) (organize cfg) sw v v) (q : ℕ → ℕ → Option α) (z : α) (i j : ℕ) (hij : i < j)
    (hi : i < (dims (organize cfg) v).length) (hj : j < (dims (organize cfg) v).length)
    (hni : 0 < (dims (organize cfg) v)[i]) (hnj : 0 < (dims (organize cfg) v)[j]) :
    ∃ x y, covDense (organize cfg) sw v (fromProcess (organize cfg) q z) z = some x ∧ diagDense (organize cfg) v q z = some y ∧
      x.2.2 (off (dims (organize cfg) v) i) (off (dims (organize cfg) v) j) = none ∧
      y.2.2 (off (dims (organize cfg) v) i) (off (dims (organize cfg) v) j) = some z := by
  have hne : organize cfg ≠ [] := by
    intro h; rw [h] at hi; simp [dims] at hi
  obtain ⟨x, hx, ⟨_, _, hx'⟩, _⟩ := C111_covariance_partial cfg hne sw v hfit hagree (fromProcess (organize cfg) q z) z
  obtain ⟨y, hy, _, _, hy'⟩ := C111_noise cfg hne v hfit q z
  refine ⟨x, y, hx, hy, ?_, ?_⟩
  · have := hx' i hi j hj 0 0 hni hnj
    rw [Nat.add_zero, Nat.add_zero] at this
    rw [this]
    unfold sym fromProcess
    rw [if_pos (Or.inl hij), if_neg (by omega)]
  · have := hy' i hi j hj 0 0 hni hnj
    rw [Nat.add_zero, Nat.add_zero] at this
    rw [this]
    unfold diagonal
    rw [if_neg (by omega)]

/-- The block of a variable state is not initialised either, since `tile` does not write. -/
theorem C111_tile_violated (cfg : List St) (hne : organize cfg ≠ []) (sw : Orders) (v : Env) (hfit : Fits (organize cfg) v)
    (hagree : Agree (organize cfg) (organize cfg) sw v v) (q : ℕ → ℕ → Option α) (z : α) (i : ℕ)
    (hi : i < (dims (organize cfg) v).length) (hv : ((organize cfg)[i]'(by rw [← length_dims]; exact hi)).var = true) (a b : ℕ)
    (ha : a < (dims (organize cfg) v)[i]) (hb : b < (dims (organize cfg) v)[i]) :
    ∃ x, covDense (organize cfg) sw v (fromProcess (organize cfg) q z) z = some x ∧
      x.2.2 (off (dims (organize cfg) v) i + a) (off (dims (organize cfg) v) i + b) = none := by
  obtain ⟨x, hx, ⟨_, _, hx'⟩, _⟩ := C111_covariance_partial cfg hne sw v hfit hagree (fromProcess (organize cfg) q z) z
  refine ⟨x, hx, ?_⟩
  rw [hx' i hi i hi a b ha hb]
  have hi' : i < (organize cfg).length := by rw [← length_dims]; exact hi
  have : ∀ a b, fromProcess (organize cfg) q z i i a b = none := by
    intro a b
    unfold fromProcess
    rw [if_pos rfl, List.getElem?_eq_getElem hi']
    simp [hv, tile]
  unfold sym
  split <;> exact this _ _

/-- With one fixed state the covariance is that of the process. -/
theorem C111_from_process_partial (d : ℕ) (sw : Orders) (v : Env) (q : ℕ → ℕ → Option α) (z : α) :
    ∃ x y, covDense (organize [⟨false, d, 0⟩]) sw v (fromProcess [⟨false, d, 0⟩] q z) z = some x ∧
      diagDense (organize [⟨false, d, 0⟩]) v q z = some y ∧ ∀ a < d, ∀ b < d, x.2.2 a b = y.2.2 a b := by
  have hfit : Fits (organize [⟨false, d, 0⟩]) v := by
    intro i h hv
    have : i = 0 := by simpa [organize] using h
    subst this; simp [organize] at hv
  obtain ⟨x, hx, ⟨_, _, hx'⟩, _⟩ := C111_covariance_one [⟨false, d, 0⟩] (by simp [organize]) sw v hfit
    (by intro i j hi hj _ _
        have hi : i < 1 := hi
        have hj : j < 1 := hj
        omega) (fromProcess [⟨false, d, 0⟩] q z) z
  obtain ⟨y, hy, _, _, hy'⟩ := C111_noise [⟨false, d, 0⟩] (by simp [organize]) v hfit q z
  refine ⟨x, y, hx, hy, fun a ha b hb => ?_⟩
  have hd : dims (organize [⟨false, d, 0⟩]) v = [d] := rfl
  have h1 := hx' 0 (by rw [hd]; simp) 0 (by rw [hd]; simp) a b (by simp only [hd]; exact ha) (by simp only [hd]; exact hb)
  have h2 := hy' 0 (by rw [hd]; simp) 0 (by rw [hd]; simp) a b (by simp only [hd]; exact ha) (by simp only [hd]; exact hb)
  have h0 : off (dims (organize [⟨false, d, 0⟩]) v) 0 = 0 := rfl
  rw [h0, Nat.zero_add, Nat.zero_add] at h1 h2
  rw [h1, h2]
  have ho : organize [⟨false, d, 0⟩] = [⟨false, d, 0⟩] := rfl
  simp only [ho, sym, fromProcess, diagonal]
  by_cases hab : a = b
  · subst hab; simp [Nat.mod_eq_of_lt ha]
  · simp [hab, Ne.symm hab]

/-- C111 in full: whatever the orders of the argument sets, dense covariances are the matrices of their blocks, `size()` is the
size of the dense form, and a covariance made from a process covariance has its dense form. -/
def C111_statement : Prop :=
  ∀ (cfg : List St) (sw : Orders) (v : Env), organize cfg ≠ [] → (∀ s ∈ cfg, 0 < s.base) → Fits (organize cfg) v →
    (∀ P : ℕ → ℕ → ℕ → ℕ → Option ℕ, ∃ x, covDense (organize cfg) sw v P 0 = some x ∧
      IsMat (dims (organize cfg) v) (dims (organize cfg) v) (sym P) x) ∧
    (∃ n, stateSize (organize cfg) = some n ∧ n.eval v = (dims (organize cfg) v).sum) ∧
    ∀ q : ℕ → ℕ → Option ℕ, ∃ x, covDense (organize cfg) sw v (fromProcess (organize cfg) q 0) 0 = some x ∧
      IsMat (dims (organize cfg) v) (dims (organize cfg) v) (diagonal (organize cfg) q 0) x

theorem C111_statement_false : ¬ C111_statement := by
  intro h
  obtain ⟨n, hn, he⟩ := (h [⟨true, 3, 5⟩] (fun _ _ => false) (fun _ => 1) (by simp [organize]) (by simp) (by
    intro i hi hv
    have hi : i < 1 := hi
    have : i = 0 := by omega
    subst this
    show 1 ≤ 5
    omega)).2.1
  obtain ⟨n', hn', he', hd⟩ := C111_size_violated
  rw [hn] at hn'
  cases hn'
  rw [hd, he'] at he
  omega

/-! ### Examples -/

/-- A part of rtk_ekf.yaml: the pose, `sd: Var<Vec1, 30>` of which four are active, and `p_b2g`. -/
def demo : List St := [⟨false, 6, 0⟩, ⟨true, 1, 30⟩, ⟨false, 3, 0⟩]

theorem demo_fits : Fits (organize demo) fun _ => 4 := by
  intro i h hv
  have h : i < 3 := h
  match i, h with
  | 0, _ => simp [demo, organize] at hv
  | 1, _ => simp [demo, organize] at hv
  | 2, _ => show 4 ≤ 30; omega

example : dims (organize demo) (fun _ => 4) = [6, 3, 4] := rfl

example : ∃ x, errorDense (organize demo) (fun _ => 4) (fun i k => some (10 * i + k)) = some x ∧ x.1 = 13 ∧
    x.2 5 = some 5 ∧ x.2 6 = some 10 ∧ x.2 9 = some 20 ∧ x.2 12 = some 23 := by
  obtain ⟨x, hx, h1, h2⟩ := C111_vector demo (fun _ => 4) demo_fits (fun i k => some (10 * i + k))
  exact ⟨x, hx, h1, h2 0 (by decide) 5 (by decide), h2 1 (by decide) 0 (by decide), h2 2 (by decide) 0 (by decide),
    h2 2 (by decide) 3 (by decide)⟩

example : ∃ x, covDense (organize demo) (fun _ _ => true) (fun _ => 4) (fun i j a b => some (1000 * i + 100 * j + 10 * a + b)) 0 = some x ∧
    x.2.2 9 7 = some 1210 := by
  obtain ⟨x, hx, ⟨_, _, h⟩, _⟩ := C111_covariance_partial demo (by simp [organize, demo]) (fun _ _ => true) (fun _ => 4) demo_fits
    (fun _ _ _ _ _ _ _ _ => rfl) (fun i j a b => some (1000 * i + 100 * j + 10 * a + b)) 0
  exact ⟨x, hx, h 2 (by decide) 1 (by decide) 0 1 (by decide) (by decide)⟩

end Verif.Props.EkfDense
