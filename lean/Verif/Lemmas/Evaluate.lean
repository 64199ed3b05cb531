import Verif.Model.Evaluate
import Verif.Spec.Evaluate

/-! Statements that write to separate blocks, for C138. -/

namespace Verif.Lemmas.Evaluate

open Verif.Model.Evaluate Verif.QuatMem Verif.Spec.Evaluate

variable {X : Type}

/-- The statements of one block, run on the block alone. -/
noncomputable def runB (x : X) : List (Stmt X) → Mem → Option Mem
  | [], c => some c
  | s :: ss, c => (s.val x c).bind fun M => (put s c 0 M).bind (runB x ss)

theorem runB_append (x : X) (a b : List (Stmt X)) (c : Mem) :
    runB x (a ++ b) c = (runB x a c).bind (runB x b) := by
  induction a generalizing c with
  | nil => rfl
  | cons s a ih =>
    simp only [List.cons_append, runB]
    cases s.val x c with
    | none => rfl
    | some M =>
      simp only [Option.bind_some]
      cases put s c 0 M with
      | none => rfl
      | some c1 => simp only [Option.bind_some]; exact ih c1

theorem has_cell {s : Stmt X} {i : ℕ} (h : s.has i) : ∃ k < s.rows, ∃ j < s.cols,
    i = (s.r0 + k) * s.stride + (s.c0 + j) := by
  obtain ⟨h1, h2, h3, h4⟩ := h
  refine ⟨i / s.stride - s.r0, by omega, i % s.stride - s.c0, by omega, ?_⟩
  rw [Nat.add_sub_cancel' h1, Nat.add_sub_cancel' h3, mul_comm]
  exact (Nat.div_add_mod _ _).symm

theorem put_blk {s : Stmt X} {m : Mem} {a n : ℕ} {M : ℕ → ℕ → ℝ} {c : Mem}
    (h : put s (blk m a n) 0 M = some c) : ∃ m1, put s m a M = some m1 ∧ blk m1 a n = c ∧
      ∀ y, (∀ i < n, y ≠ a + i) → m1 y = m y := by
  unfold put at h
  split at h
  case isFalse => exact absurd h (by simp)
  case isTrue hal =>
  have hal2 : ∀ i < s.rows, ∀ j < s.cols, (s.r0 + i) * s.stride + (s.c0 + j) < n ∧
      (m (a + ((s.r0 + i) * s.stride + (s.c0 + j)))).isSome := by
    intro i hi j hj
    have := hal i hi j hj
    rw [zero_add] at this
    unfold blk at this
    split at this
    · exact ⟨‹_›, this⟩
    · simp at this
  obtain rfl := Option.some.inj h
  refine ⟨_, by unfold put; rw [if_pos fun i hi j hj => (hal2 i hi j hj).2], ?_, ?_⟩
  · funext i
    unfold blk
    by_cases hi : i < n
    · simp [hi]
    · rw [if_neg hi]
      by_cases hh : s.has i
      · obtain ⟨k, hk, j, hj, e⟩ := has_cell hh
        exact absurd (e ▸ (hal2 k hk j hj).1) hi
      · simp [hh, hi]
  · intro y hy
    rw [if_neg]
    rintro ⟨h1, h2⟩
    obtain ⟨k, hk, j, hj, e⟩ := has_cell h2
    exact hy (y - a) (e ▸ (hal2 k hk j hj).1) (by omega)

theorem blk_congr {m m' : Mem} {a n : ℕ} (h : ∀ i < n, m (a + i) = m' (a + i)) : blk m a n = blk m' a n := by
  funext i
  unfold blk
  split
  · exact h i ‹_›
  · rfl

/-- Blocks that do not overlap can be considered one by one. -/
theorem exec_spec (read : Mem → Option X) (sz : Option ℕ → ℕ) (at_ : Option ℕ → Option ℕ) (P : ℕ → Prop) (x : X)
    (ss : List (Stmt X)) (m : Mem) (hread : ∀ m', (∀ y, P y → m' y = m y) → read m' = some x)
    (hP : ∀ g a, at_ g = some a → ∀ i < sz g, ¬ P (a + i))
    (hd : ∀ g g' a a', g ≠ g' → at_ g = some a → at_ g' = some a' → ∀ i < sz g, ∀ j < sz g', a + i ≠ a' + j)
    (fin : Option ℕ → Mem)
    (hrun : ∀ g a, at_ g = some a → runB x (ss.filter fun s => s.block == g) (blk m a (sz g)) = some (fin g)) :
    ∃ m', exec read sz at_ ss m = some m' ∧ (∀ g a, at_ g = some a → blk m' a (sz g) = fin g) ∧
      ∀ y, (∀ g a, at_ g = some a → ∀ i < sz g, y ≠ a + i) → m' y = m y := by
  induction ss generalizing m with
  | nil =>
    refine ⟨m, rfl, fun g a h => ?_, fun _ _ => rfl⟩
    have := hrun g a h
    simpa [runB] using this
  | cons s ss ih =>
    cases ha : at_ s.block with
    | none =>
      obtain ⟨m', h1, h2, h3⟩ := ih m hread fun g a h => by
        have := hrun g a h
        rwa [List.filter_cons_of_neg] at this
        simp only [beq_iff_eq]
        rintro rfl
        rw [ha] at h
        exact absurd h (by simp)
      refine ⟨m', ?_, h2, h3⟩
      rw [exec, ha]
      exact h1
    | some a =>
      have hs := hrun s.block a ha
      rw [List.filter_cons_of_pos (by simp), runB] at hs
      obtain ⟨M, hM, hs⟩ := Option.bind_eq_some_iff.1 hs
      obtain ⟨c, hc, hs⟩ := Option.bind_eq_some_iff.1 hs
      obtain ⟨m1, h1, h2, h3⟩ := put_blk hc
      have hx : read m = some x := hread m fun _ _ => rfl
      have hm1 : ∀ y, P y → m1 y = m y := fun y hy =>
        h3 y fun i hi e => hP _ _ ha i hi (e ▸ hy)
      obtain ⟨m', k1, k2, k3⟩ := ih m1
        (fun m' hm' => hread m' fun y hy => (hm' y hy).trans (hm1 y hy)) (fun g b hb => by
          by_cases hg : s.block = g
          · subst hg
            rw [ha] at hb
            obtain rfl := Option.some.inj hb
            rw [h2]
            exact hs
          · have := hrun g b hb
            rw [List.filter_cons_of_neg (by simpa using hg)] at this
            rwa [blk_congr (m' := m)]
            intro i hi
            exact h3 _ fun j hj e => hd _ _ _ _ hg ha hb j hj i hi e.symm)
      refine ⟨m', ?_, k2, fun y hy => ?_⟩
      · rw [exec, ha]
        simp only [hx, hM, h1, Option.bind_some]
        exact k1
      · rw [k3 y hy]
        exact h3 y fun i hi => hy _ _ ha i hi

/-! ## Statements that do not read their block -/

/-- A statement that does not read its block and stays in it. -/
structure Plain (x : X) (n : ℕ) (s : Stmt X) (v : ℕ → ℕ → ℝ) : Prop where
  val : ∀ c, s.val x c = some v
  rows : (s.r0 + s.rows) * s.stride ≤ n
  cols : s.c0 + s.cols ≤ s.stride

/-- What the block holds afterwards. -/
def over (s : Stmt X) (v : ℕ → ℕ → ℝ) (c : Mem) : Mem := fun i =>
  if s.has i then some (v (i / s.stride - s.r0) (i % s.stride - s.c0)) else c i

theorem cell_lt {s : Stmt X} {n i j : ℕ} (hr : (s.r0 + s.rows) * s.stride ≤ n) (hc : s.c0 + s.cols ≤ s.stride)
    (hi : i < s.rows) (hj : j < s.cols) : (s.r0 + i) * s.stride + (s.c0 + j) < n := by
  have h1 : (s.r0 + i + 1) * s.stride ≤ (s.r0 + s.rows) * s.stride := Nat.mul_le_mul_right _ (by omega)
  rw [Nat.add_mul, one_mul] at h1
  omega

theorem put_plain {x : X} {n : ℕ} {s : Stmt X} {v : ℕ → ℕ → ℝ} (h : Plain x n s v) (c : Mem)
    (hc : ∀ i < n, (c i).isSome) : put s c 0 v = some (over s v c) := by
  unfold put
  rw [if_pos fun i hi j hj => by rw [zero_add]; exact hc _ (cell_lt h.rows h.cols hi hj)]
  rw [Option.some.injEq]
  funext y
  simp only [Nat.zero_le, true_and, Nat.sub_zero, over]

theorem over_alive {s : Stmt X} {v : ℕ → ℕ → ℝ} {c : Mem} {i : ℕ} (h : (c i).isSome) : (over s v c i).isSome := by
  unfold over
  split
  · rfl
  · exact h

/-- Several statements. -/
def overs : List (Stmt X × (ℕ → ℕ → ℝ)) → Mem → Mem
  | [], c => c
  | s :: ss, c => overs ss (over s.1 s.2 c)

theorem run_plain {x : X} {n : ℕ} (l : List (Stmt X × (ℕ → ℕ → ℝ))) (h : ∀ s ∈ l, Plain x n s.1 s.2) (c : Mem)
    (hc : ∀ i < n, (c i).isSome) : runB x (l.map Prod.fst) c = some (overs l c) ∧
      (∀ i < n, (overs l c i).isSome) ∧ ∀ i, n ≤ i → overs l c i = c i := by
  induction l generalizing c with
  | nil => exact ⟨rfl, hc, fun _ _ => rfl⟩
  | cons s l ih =>
    have hs := h s (by simp)
    obtain ⟨h1, h2, h3⟩ := ih (fun t ht => h t (List.mem_cons_of_mem _ ht)) (over s.1 s.2 c)
      fun i hi => over_alive (hc i hi)
    refine ⟨?_, h2, fun i hi => ?_⟩
    · rw [List.map_cons, runB, hs.val, Option.bind_some, put_plain hs c hc, Option.bind_some, h1]
      rfl
    · show overs l (over s.1 s.2 c) i = c i
      rw [h3 i hi]
      unfold over
      rw [if_neg]
      intro hh
      obtain ⟨k, hk, j, hj, e⟩ := has_cell hh
      have := cell_lt hs.rows hs.cols hk hj
      omega

/-- What statements leave in an element they cover does not depend on what was there. -/
theorem overs_cover (l : List (Stmt X × (ℕ → ℕ → ℝ))) (c c' : Mem) (i : ℕ) (h : c i = c' i ∨ ∃ s ∈ l, s.1.has i) :
    overs l c i = overs l c' i := by
  induction l generalizing c c' with
  | nil =>
    rcases h with h | ⟨s, hs, -⟩
    · exact h
    · simp at hs
  | cons s l ih =>
    refine ih _ _ ?_
    by_cases hh : s.1.has i
    · left; simp [over, hh]
    · rcases h with h | ⟨t, ht, hi⟩
      · left; simp [over, hh, h]
      · rcases List.mem_cons.1 ht with rfl | ht
        · exact absurd hi hh
        · exact Or.inr ⟨t, ht, hi⟩

/-- A block all of whose elements are assigned. -/
theorem run_block {x : X} {n : ℕ} (l : List (Stmt X × (ℕ → ℕ → ℝ))) (h : ∀ s ∈ l, Plain x n s.1 s.2) (m : Mem) (a : ℕ)
    (hm : ∀ i < n, (m (a + i)).isSome) (v : ℕ → ℝ) (hv : ∀ i < n, overs l (fun _ => none) i = some (v i)) :
    runB x (l.map Prod.fst) (blk m a n) = some (fun i => if i < n then some (v i) else none) := by
  obtain ⟨h1, -, h3⟩ := run_plain l h (blk m a n) fun i hi => by simp [blk, hi, hm i hi]
  rw [h1, Option.some.injEq]
  funext i
  by_cases hi : i < n
  · rw [if_pos hi, ← hv i hi]
    by_cases hc : ∃ s ∈ l, s.1.has i
    · exact overs_cover _ _ _ _ (Or.inr hc)
    · exfalso
      have : ∀ (l : List (Stmt X × (ℕ → ℕ → ℝ))) (c : Mem), (¬ ∃ s ∈ l, s.1.has i) → overs l c i = c i := by
        intro l
        induction l with
        | nil => intro c _; rfl
        | cons s l ih =>
          intro c hc
          show overs l (over s.1 s.2 c) i = c i
          rw [ih _ fun ⟨t, ht, hi⟩ => hc ⟨t, List.mem_cons_of_mem _ ht, hi⟩]
          unfold over
          rw [if_neg fun hh => hc ⟨s, by simp, hh⟩]
      have h2 := hv i hi
      rw [this l _ hc] at h2
      simp at h2
  · rw [if_neg hi, h3 i (by omega)]
    simp [blk, hi]

theorem plain_st (x : X) (n : ℕ) (b : Option ℕ) (stride r0 c0 rows cols : ℕ) (v : X → ℕ → ℕ → ℝ)
    (h1 : (r0 + rows) * stride ≤ n) (h2 : c0 + cols ≤ stride) : Plain x n (st b stride r0 c0 rows cols v) (v x) :=
  ⟨fun _ => rfl, h1, h2⟩

/-! ## Reading -/

theorem rdV_congr {n : ℕ} {m m' : Mem} {a : ℕ} (h : ∀ i < n, m' (a + i) = m (a + i)) : rdV n m' a = rdV n m a := by
  have e : ∀ i : Fin n, m' (a + i) = m (a + i) := fun i => h i i.2
  unfold rdV
  simp only [e]

theorem rd8_congr {m m' : Mem} {a : ℕ} (h : ∀ i < 8, m' (a + i) = m (a + i)) : rd8 m' a = rd8 m a := by
  have e := fun i (hi : i < 8) => h i hi
  unfold rd8 rd4
  have h0 := e 0 (by omega); have h1 := e 1 (by omega); have h2 := e 2 (by omega); have h3 := e 3 (by omega)
  have h4 := e 4 (by omega); have h5 := e 5 (by omega); have h6 := e 6 (by omega); have h7 := e 7 (by omega)
  simp only [Nat.add_zero, Nat.add_assoc, Nat.reduceAdd] at *
  rw [h0, h1, h2, h3, h4, h5, h6, h7]

/-! ## All together -/

/-- The sizes of the maps. -/
def szOf (n0 : ℕ) (ns : List ℕ) : Option ℕ → ℕ
  | none => n0
  | some k => ns.getD k 0

theorem block_of {res n0 : ℕ} {jac : Option (ℕ → Option ℕ)} {ns : List ℕ} {g : Option ℕ} {a i : ℕ}
    (h : addr res jac g = some a) (hi : i < szOf n0 ns g) :
    blocks ⟨res, n0⟩ jac ns g = some ⟨a, szOf n0 ns g⟩ := by
  cases g with
  | none =>
    obtain rfl : res = a := by simpa [addr] using h
    rfl
  | some k =>
    have h2 : (jac.bind fun f => f k) = some a := h
    unfold szOf at hi ⊢
    rw [blocks, h2, Option.bind_some]
    cases hk : ns[k]? with
    | none => simp [List.getD, hk] at hi
    | some n => simp [List.getD, hk]

theorem eval_spec (read : Mem → Option X) (ins : List Seg) (x : X) (n0 : ℕ) (ns : List ℕ) (res : ℕ)
    (jac : Option (ℕ → Option ℕ)) (ss : List (Stmt X)) (m : Mem)
    (hready : Ready m ins (blocks ⟨res, n0⟩ jac ns))
    (hread : ∀ m', (∀ s ∈ ins, ∀ y, s.has y → m' y = m y) → read m' = some x)
    (v : Option ℕ → ℕ → ℝ)
    (hrun : ∀ g a, addr res jac g = some a → (∀ i < szOf n0 ns g, (m (a + i)).isSome) →
      runB x (ss.filter fun s => s.block == g) (blk m a (szOf n0 ns g)) =
        some (fun i => if i < szOf n0 ns g then some (v g i) else none)) :
    ∃ m', exec read (szOf n0 ns) (addr res jac) ss m = some m' ∧
      (∀ i < n0, m' (res + i) = some (v none i)) ∧
      (∀ k f a, jac = some f → f k = some a → ∀ i < ns.getD k 0, m' (a + i) = some (v (some k) i)) ∧
      Only m m' (blocks ⟨res, n0⟩ jac ns) := by
  obtain ⟨m', h1, h2, h3⟩ := exec_spec read (szOf n0 ns) (addr res jac) (fun y => ∃ s ∈ ins, s.has y) x ss m
    (fun m' hm' => hread m' fun s hs y hy => hm' y ⟨s, hs, hy⟩)
    (fun g a hg i hi ⟨s, hs, hy⟩ => hready.input g _ (block_of hg hi) s hs (a + i) ⟨by simp, by simpa using hi⟩ hy)
    (fun g g' a a' hne hg hg' i hi j hj e => hready.apart g g' _ _ hne (block_of hg hi) (block_of hg' hj) (a + i)
      ⟨by simp, by simpa using hi⟩ (by rw [e]; exact ⟨by simp, by simpa using hj⟩))
    (fun g i => if i < szOf n0 ns g then some (v g i) else none)
    (fun g a hg => hrun g a hg fun i hi => hready.alive g _ (block_of hg hi) (a + i) ⟨by simp, by simpa using hi⟩)
  refine ⟨m', h1, fun i hi => ?_, fun k f a hf ha i hi => ?_, fun y hy => h3 y fun g a hg i hi e => ?_⟩
  · have := congrFun (h2 none res rfl) i
    simpa [blk, szOf, hi] using this
  · have := congrFun (h2 (some k) a (by simp [addr, hf, ha])) i
    have hi' : i < szOf n0 ns (some k) := hi
    simp only [blk, if_pos hi'] at this
    exact this
  · exact hy g _ (block_of hg hi) (by rw [e]; exact ⟨by simp, by simpa using hi⟩)

/-- The elements of a matrix row by row. -/
noncomputable def flat {r c : ℕ} (J : Matrix (Fin r) (Fin c) ℝ) (i : ℕ) : ℝ :=
  if h : i / c < r ∧ i % c < c then J ⟨i / c, h.1⟩ ⟨i % c, h.2⟩ else 0

theorem flat_at {r c : ℕ} (J : Matrix (Fin r) (Fin c) ℝ) (i : Fin r) (j : Fin c) : flat J (i.val * c + j.val) = J i j := by
  have h0 : 0 < c := by have := j.2; omega
  have h1 : (i.val * c + j.val) / c = i := by
    rw [mul_comm, Nat.mul_add_div h0, Nat.div_eq_of_lt j.2, add_zero]
  have h2 : (i.val * c + j.val) % c = j := by
    rw [mul_comm, Nat.mul_add_mod, Nat.mod_eq_of_lt j.2]
  unfold flat
  rw [dif_pos ⟨by rw [h1]; exact i.2, by rw [h2]; exact j.2⟩]
  congr 1 <;> apply Fin.ext
  · exact h1
  · exact h2

theorem exists_at {r c i : ℕ} (h : i < r * c) : ∃ (a : Fin r) (b : Fin c), i = a.val * c + b.val := by
  have h0 : 0 < c := by
    rcases Nat.eq_zero_or_pos c with rfl | h0
    · simp at h
    · exact h0
  refine ⟨⟨i / c, Nat.div_lt_of_lt_mul (by rw [mul_comm]; exact h)⟩, ⟨i % c, Nat.mod_lt _ h0⟩, ?_⟩
  rw [mul_comm]
  exact (Nat.div_add_mod i c).symm

/-- The values of a statement. -/
noncomputable def valOf (x : X) (s : Stmt X) : ℕ → ℕ → ℝ := (s.val x fun _ => none).getD fun _ _ => 0

/-- Statements that assign a matrix. -/
theorem run_matrix {x : X} {n r c : ℕ} (hn : n = r * c) (ss : List (Stmt X)) (h : ∀ s ∈ ss, Plain x n s (valOf x s)) (m : Mem)
    (a : ℕ) (hm : ∀ i < n, (m (a + i)).isSome) (J : Matrix (Fin r) (Fin c) ℝ)
    (hv : ∀ (i : Fin r) (j : Fin c),
      overs (ss.map fun s => (s, valOf x s)) (fun _ => none) (i.val * c + j.val) = some (J i j)) :
    runB x ss (blk m a n) = some (fun i => if i < n then some (flat J i) else none) := by
  have := run_block (x := x) (n := n) (ss.map fun s => (s, valOf x s)) (fun s hs => by
    obtain ⟨t, ht, rfl⟩ := List.mem_map.1 hs
    exact h t ht) m a hm (flat J) (fun i hi => by
      subst hn
      obtain ⟨p, q, rfl⟩ := exists_at hi
      rw [hv, flat_at])
  rwa [List.map_map, show (Prod.fst ∘ fun s : Stmt X => (s, valOf x s)) = id from rfl, List.map_id] at this

theorem rowMajor_flat {m : Mem} {a r c : ℕ} {J : Matrix (Fin r) (Fin c) ℝ}
    (h : ∀ i < r * c, m (a + i) = some (flat J i)) : RowMajor m a J := by
  intro i j
  rw [h _ (by
    have h1 : (i.val + 1) * c ≤ r * c := Nat.mul_le_mul_right _ i.2
    have := j.2
    rw [Nat.add_mul, one_mul] at h1
    omega), flat_at]

theorem rowMajor_of {m : Mem} {a r c : ℕ} {v : ℕ → ℝ} {J : Matrix (Fin r) (Fin c) ℝ}
    (h : ∀ i < r * c, m (a + i) = some (v i)) (hJ : ∀ (i : Fin r) (j : Fin c), v (i.val * c + j.val) = J i j) :
    RowMajor m a J := by
  intro i j
  rw [h _ (by
    have h1 : (i.val + 1) * c ≤ r * c := Nat.mul_le_mul_right _ i.2
    have := j.2
    rw [Nat.add_mul, one_mul] at h1
    omega), hJ]

end Verif.Lemmas.Evaluate
