import Verif.Model.QuatMem
import Verif.Spec.QuatMem
import Verif.Props.DQuat

/-!
C117: quaternions as objects in memory.
-/

namespace Verif.Props.QuatMem

open Verif.QuatMem Verif.Model.Lie Verif.Spec.Lie Verif.Props.Quat

theorem rd4_eq {m : Mem} {a : ℕ} {q : Quat} :
    rd4 m a = some q ↔ m a = some q.w ∧ m (a + 1) = some q.x ∧ m (a + 2) = some q.y ∧ m (a + 3) = some q.z := by
  unfold rd4
  constructor
  · intro h
    split at h
    · rename_i h1 h2 h3 h4
      cases h
      exact ⟨h1, h2, h3, h4⟩
    · cases h
  · rintro ⟨h1, h2, h3, h4⟩
    rw [h1, h2, h3, h4]

theorem rd4_same {m m' : Mem} {a : ℕ} (h : SameAt m m' a 4) : rd4 m' a = rd4 m a := by
  unfold rd4
  rw [h a (by omega) (by omega), h (a + 1) (by omega) (by omega), h (a + 2) (by omega) (by omega),
    h (a + 3) (by omega) (by omega)]

theorem wr_some {m : Mem} {a : ℕ} {x : ℝ} (h : m a = some x) (v : ℝ) : wr m a v = some (Function.update m a (some v)) := by
  unfold wr
  rw [h]
  rfl

theorem upd_ne {m : Mem} {a b : ℕ} {v : Option ℝ} (h : b ≠ a) : Function.update m a v b = m b := Function.update_of_ne h _ _

theorem alloc_val (m : Mem) (a : ℕ) (q : Quat) : rd4 (alloc4 m a q) a = some q := by
  rw [rd4_eq]
  simp [alloc4]

theorem alloc_only (m : Mem) (a : ℕ) (q : Quat) : Only m (alloc4 m a q) a 4 := by
  intro i hi
  unfold alloc4
  rw [if_neg (by omega), if_neg (by omega), if_neg (by omega), if_neg (by omega)]

theorem alloc_alive {m : Mem} {a b n : ℕ} (q : Quat) (h : Alive m b n) : Alive (alloc4 m a q) b n := by
  intro i h1 h2
  unfold alloc4
  split_ifs
  · exact ⟨_, rfl⟩
  · exact ⟨_, rfl⟩
  · exact ⟨_, rfl⟩
  · exact ⟨_, rfl⟩
  · exact h i h1 h2

theorem upd4 (m : Mem) (a : ℕ) (q : Quat) :
    Function.update (Function.update (Function.update (Function.update m a (some q.w)) (a + 1) (some q.x)) (a + 2) (some q.y))
      (a + 3) (some q.z) = alloc4 m a q := by
  funext i
  unfold alloc4
  simp only [Function.update_apply]
  split_ifs <;> first | rfl | omega

theorem wr4_some {m : Mem} {a : ℕ} (h : Alive m a 4) (q : Quat) : wr4 m a q = some (alloc4 m a q) := by
  obtain ⟨v0, h0⟩ := h a (by omega) (by omega)
  obtain ⟨v1, h1⟩ := h (a + 1) (by omega) (by omega)
  obtain ⟨v2, h2⟩ := h (a + 2) (by omega) (by omega)
  obtain ⟨v3, h3⟩ := h (a + 3) (by omega) (by omega)
  unfold wr4
  rw [wr_some h0, Option.bind_some,
    wr_some (x := v1) (by rw [upd_ne (by omega), h1]), Option.bind_some,
    wr_some (x := v2) (by rw [upd_ne (by omega), upd_ne (by omega), h2]), Option.bind_some,
    wr_some (x := v3) (by rw [upd_ne (by omega), upd_ne (by omega), upd_ne (by omega), h3]), upd4]

theorem alive_of_rd {m : Mem} {a : ℕ} {q : Quat} (h : rd4 m a = some q) : Alive m a 4 := by
  obtain ⟨h0, h1, h2, h3⟩ := rd4_eq.1 h
  intro i hi1 hi2
  have : i = a ∨ i = a + 1 ∨ i = a + 2 ∨ i = a + 3 := by omega
  rcases this with rfl | rfl | rfl | rfl
  · exact ⟨_, h0⟩
  · exact ⟨_, h1⟩
  · exact ⟨_, h2⟩
  · exact ⟨_, h3⟩

theorem rd4_apart {m : Mem} {a b : ℕ} (q : Quat) (h : Apart a b 4) : rd4 (alloc4 m a q) b = rd4 m b :=
  rd4_same fun i h1 h2 => alloc_only m a q i (by unfold Apart at h; omega)

theorem seq_some {m : Mem} {a b : ℕ} {q : Quat} (h : Alive m b 4) (hq : rd4 m a = some q) (hd : Apart b a 4 ∨ b = a) :
    copy.wr4Seq m b a = some (alloc4 m b q) := by
  obtain ⟨v0, h0⟩ := h b (by omega) (by omega)
  obtain ⟨v1, h1⟩ := h (b + 1) (by omega) (by omega)
  obtain ⟨v2, h2⟩ := h (b + 2) (by omega) (by omega)
  obtain ⟨v3, h3⟩ := h (b + 3) (by omega) (by omega)
  obtain ⟨q0, q1, q2, q3⟩ := rd4_eq.1 hq
  have hne : ∀ i j, i < 4 → j < 4 → i < j → a + j ≠ b + i := by
    intro i j hi hj hij
    rcases hd with hd | hd
    · unfold Apart at hd; omega
    · omega
  have e1 : a + 1 ≠ b := hne 0 1 (by omega) (by omega) (by omega)
  have e2 : a + 2 ≠ b := hne 0 2 (by omega) (by omega) (by omega)
  have e3 : a + 3 ≠ b := hne 0 3 (by omega) (by omega) (by omega)
  have e4 := hne 1 2 (by omega) (by omega) (by omega)
  have e5 := hne 1 3 (by omega) (by omega) (by omega)
  have e6 := hne 2 3 (by omega) (by omega) (by omega)
  unfold copy.wr4Seq
  rw [q0, Option.bind_some, wr_some h0, Option.bind_some, upd_ne e1, q1, Option.bind_some,
    wr_some (x := v1) (by rw [upd_ne (by omega), h1]), Option.bind_some, upd_ne e4, upd_ne e2, q2, Option.bind_some,
    wr_some (x := v2) (by rw [upd_ne (by omega), upd_ne (by omega), h2]), Option.bind_some, upd_ne e6, upd_ne e5, upd_ne e3, q3,
    Option.bind_some, wr_some (x := v3) (by rw [upd_ne (by omega), upd_ne (by omega), upd_ne (by omega), h3]), upd4]

/-- **C117, copies.**  The copy of a quaternion has its value, writes to nothing but its own buffer, leaves the original as
it is, and does not depend on any other memory afterwards. -/
theorem C117_copy (m : Mem) (b : ℕ) (q : Obj) (v : Quat) (hb : Alive m b 4) (hd : Apart b q.map 4) (hv : q.val m = some v) :
    ∃ m' o, copy m b q = some (m', o) ∧ Only m m' b 4 ∧ o.val m' = some v ∧ q.val m' = some v ∧
      ∀ m'', SameAt m' m'' b 4 → o.val m'' = some v := by
  refine ⟨alloc4 m b v, ⟨b, b⟩, ?_, alloc_only m b v, alloc_val m b v, ?_, fun m'' h => ?_⟩
  · unfold copy
    rw [seq_some hb hv (Or.inl hd)]
    rfl
  · exact (rd4_apart v hd).trans hv
  · exact (rd4_same h).trans (alloc_val m b v)

/-- **C117, assignments.**  `p = q` gives `p` the value of `q` wherever the two lie, even if they overlap, and writes to nothing
but the memory `p` is mapped to. -/
theorem C117_assign (m : Mem) (p q : Obj) (v : Quat) (hp : Alive m p.map 4) (hv : q.val m = some v) :
    ∃ m', assign m p q = some m' ∧ Only m m' p.map 4 ∧ p.val m' = some v :=
  ⟨alloc4 m p.map v, by unfold assign; rw [hv, Option.bind_some, wr4_some hp], alloc_only _ _ _, alloc_val _ _ _⟩

/-- **C117, `p *= q` (part).**  If the two do not overlap the result is the product. -/
theorem C117_mul_partial (m : Mem) (p q : Obj) (s r : Quat) (hd : Apart p.map q.map 4) (hs : p.val m = some s)
    (hr : q.val m = some r) :
    ∃ m', mulAssign m p q = some m' ∧ mulThen m p q = some m' ∧ Only m m' p.map 4 ∧ p.val m' = some (s.otimes r) := by
  refine ⟨alloc4 m p.map (s.otimes r), ?_, ?_, alloc_only _ _ _, alloc_val _ _ _⟩
  · obtain ⟨h0, h1, h2, h3⟩ := rd4_eq.1 hs
    have hk : ∀ (m' : Mem), Only m m' p.map 4 → q.val m' = some r := by
      intro m' h
      exact (rd4_same fun i h1 h2 => h i (by unfold Apart at hd; omega)).trans hr
    unfold mulAssign
    rw [hs, Option.bind_some, hr, Option.bind_some, wr_some h0, Option.bind_some,
      hk _ (fun i hi => by rw [upd_ne (by omega)]), Option.bind_some,
      wr_some (x := s.x) (by rw [upd_ne (by omega), h1]), Option.bind_some,
      hk _ (fun i hi => by rw [upd_ne (by omega), upd_ne (by omega)]), Option.bind_some,
      wr_some (x := s.y) (by rw [upd_ne (by omega), upd_ne (by omega), h2]), Option.bind_some,
      hk _ (fun i hi => by rw [upd_ne (by omega), upd_ne (by omega), upd_ne (by omega)]), Option.bind_some,
      wr_some (x := s.z) (by rw [upd_ne (by omega), upd_ne (by omega), upd_ne (by omega), h3])]
    exact congrArg some (upd4 m p.map (s.otimes r))
  · unfold mulThen
    rw [hs, Option.bind_some, hr, Option.bind_some, wr4_some (alive_of_rd hs)]

/-- What `q *= q` leaves: each element is computed with the new values of the elements before. -/
def selfMul (s : Quat) : Quat :=
  let w := s.w * s.w - s.x * s.x - s.y * s.y - s.z * s.z
  let x := s.w * s.x + s.x * w + s.y * s.z - s.z * s.y
  let y := s.w * s.y - s.x * s.z + s.y * w + s.z * x
  ⟨w, x, y, s.w * s.z + s.x * y - s.y * x + s.z * w⟩

/-- **C117, `q *= q`.**  The result in closed form.  For a unit quaternion it is not the square, unless `w` is 1, -1 or
-1/2. -/
theorem C117_mul_violated (m : Mem) (p : Obj) (s : Quat) (hs : p.val m = some s) :
    (∃ m', mulAssign m p p = some m' ∧ p.val m' = some (selfMul s)) ∧
    (UnitQ s → s.w ≠ 1 → s.w ≠ -1 → s.w ≠ -1 / 2 → selfMul s ≠ s.otimes s) := by
  constructor
  · refine ⟨alloc4 m p.map (selfMul s), ?_, alloc_val _ _ _⟩
    obtain ⟨h0, h1, h2, h3⟩ := rd4_eq.1 hs
    set W := s.w * s.w - s.x * s.x - s.y * s.y - s.z * s.z with hW
    set X := s.w * s.x + s.x * W + s.y * s.z - s.z * s.y with hX
    set Y := s.w * s.y - s.x * s.z + s.y * W + s.z * X with hY
    set Z := s.w * s.z + s.x * Y - s.y * X + s.z * W with hZ
    have q1 : p.val (Function.update m p.map (some W)) = some ⟨W, s.x, s.y, s.z⟩ := rd4_eq.2 ⟨Function.update_self _ _ _,
      by rw [upd_ne (by omega), h1], by rw [upd_ne (by omega), h2], by rw [upd_ne (by omega), h3]⟩
    have q2 : p.val (Function.update (Function.update m p.map (some W)) (p.map + 1) (some X)) = some ⟨W, X, s.y, s.z⟩ := rd4_eq.2 ⟨by
      rw [upd_ne (by omega), Function.update_self], Function.update_self _ _ _, by rw [upd_ne (by omega), upd_ne (by omega), h2],
      by rw [upd_ne (by omega), upd_ne (by omega), h3]⟩
    have q3 : p.val (Function.update (Function.update (Function.update m p.map (some W)) (p.map + 1) (some X)) (p.map + 2) (some Y)) =
        some ⟨W, X, Y, s.z⟩ := rd4_eq.2 ⟨by
      rw [upd_ne (by omega), upd_ne (by omega), Function.update_self], by rw [upd_ne (by omega), Function.update_self], Function.update_self _ _ _,
      by rw [upd_ne (by omega), upd_ne (by omega), upd_ne (by omega), h3]⟩
    have g1 := wr_some (rd4_eq.1 q1).2.1 X
    have g2 := wr_some (rd4_eq.1 q2).2.2.1 Y
    have g3 := wr_some (rd4_eq.1 q3).2.2.2 Z
    unfold mulAssign
    rw [hs]
    simp only [Option.bind_some]
    rw [wr_some h0, Option.bind_some, q1]
    simp only [Option.bind_some]
    rw [g1, Option.bind_some, q2]
    simp only [Option.bind_some]
    rw [g2, Option.bind_some, q3]
    simp only [Option.bind_some]
    rw [g3]
    exact congrArg some (upd4 m p.map (selfMul s))
  · intro hu h1 h2 h3 he
    have ew := congrArg Quat.w he
    have ex := congrArg Quat.x he
    have ey := congrArg Quat.y he
    have ez := congrArg Quat.z he
    simp only [selfMul, Quat.otimes] at ew ex ey ez
    simp only [UnitQ] at hu
    have hw : s.w * s.w - s.x * s.x - s.y * s.y - s.z * s.z = 2 * s.w ^ 2 - 1 := by linear_combination -hu
    have hne : 2 * s.w ^ 2 - 1 - s.w ≠ 0 := by
      intro h
      have : (s.w - 1) * (2 * s.w + 1) = 0 := by linear_combination h
      rcases mul_eq_zero.1 this with h | h
      · exact h1 (by linarith)
      · exact h3 (by linarith)
    rw [hw] at ex ey ez
    have x0 : s.x = 0 := by
      have : s.x * (2 * s.w ^ 2 - 1 - s.w) = 0 := by linear_combination ex
      exact (mul_eq_zero.1 this).resolve_right hne
    rw [x0] at ey ez hu
    have y0 : s.y = 0 := by
      have : s.y * (2 * s.w ^ 2 - 1 - s.w) = 0 := by linear_combination ey
      exact (mul_eq_zero.1 this).resolve_right hne
    rw [y0] at ez hu
    have z0 : s.z = 0 := by
      have : s.z * (2 * s.w ^ 2 - 1 - s.w) = 0 := by linear_combination ez
      exact (mul_eq_zero.1 this).resolve_right hne
    rw [z0] at hu
    have : (s.w - 1) * (s.w + 1) = 0 := by linear_combination hu
    rcases mul_eq_zero.1 this with h | h
    · exact h1 (by linarith)
    · exact h2 (by linarith)

/-- The property. -/
def C117_mul_statement : Prop := ∀ (m : Mem) (p q : Obj) (s r : Quat), p.val m = some s → q.val m = some r →
  ∃ m', mulAssign m p q = some m' ∧ p.val m' = some (s.otimes r)

theorem C117_mul_statement_false : ¬ C117_mul_statement := by
  intro h
  obtain ⟨m', h1, h2⟩ := h (alloc4 (fun _ => none) 0 ⟨0, 1, 0, 0⟩) ⟨0, 0⟩ ⟨0, 0⟩ ⟨0, 1, 0, 0⟩ ⟨0, 1, 0, 0⟩ (alloc_val _ _ _) (alloc_val _ _ _)
  obtain ⟨⟨m'', h3, h4⟩, h5⟩ := C117_mul_violated (alloc4 (fun _ => none) 0 ⟨0, 1, 0, 0⟩) ⟨0, 0⟩ ⟨0, 1, 0, 0⟩ (alloc_val _ _ _)
  rw [h1] at h3
  cases h3
  rw [h2] at h4
  exact h5 (by norm_num [UnitQ]) (by norm_num) (by norm_num) (by norm_num) (Option.some.inj h4).symm

/-- **C117, quaternions made of vectors.**  A `Quat` constructed from a constant vector of four numbers is no copy of it: assigning to the
quaternion overwrites the vector.  Constructed from an expression it refers to memory that no longer exists. -/
theorem C117_ref_violated (m : Mem) (b a : ℕ) (q : Obj) (u v : Quat) (ha : rd4 m a = some u) (hv : q.val m = some v) :
    let o := (ofPtr m b a).2
    (o.val m = some u ∧ ∃ m', assign m o q = some m' ∧ rd4 m' a = some v) ∧
    (∀ t w, (ofExpr m b t w).2.val (ofExpr m b t w).1 = none) := by
  refine ⟨⟨ha, ?_⟩, fun t w => ?_⟩
  · obtain ⟨m', h1, -, h3⟩ := C117_assign m ⟨b, a⟩ q v (alive_of_rd ha) hv
    exact ⟨m', h1, h3⟩
  · simp [ofExpr, ofPtr, Obj.val, rd4, free4]

/-! ### Dual quaternions -/

theorem wr8_some {m : Mem} {a : ℕ} (h : Alive m a 8) (p : DQuat) : wr8 m a p = some (alloc4 (alloc4 m a p.r) (a + 4) p.d) := by
  unfold wr8
  rw [wr4_some (fun i h1 h2 => h i (by omega) (by omega)), Option.bind_some,
    wr4_some (alloc_alive _ fun i h1 h2 => h i (by omega) (by omega))]

theorem rd8_eq {m : Mem} {a : ℕ} {p : DQuat} : rd8 m a = some p ↔ rd4 m a = some p.r ∧ rd4 m (a + 4) = some p.d := by
  unfold rd8
  constructor
  · intro h
    cases h1 : rd4 m a with
    | none => rw [h1] at h; cases h
    | some r =>
      rw [h1, Option.bind_some] at h
      cases h2 : rd4 m (a + 4) with
      | none => rw [h2] at h; cases h
      | some d => rw [h2] at h; cases h; exact ⟨rfl, rfl⟩
  · rintro ⟨h1, h2⟩
    rw [h1, h2]
    rfl

theorem two_val (m : Mem) (a : ℕ) (p : DQuat) : rd8 (alloc4 (alloc4 m a p.r) (a + 4) p.d) a = some p :=
  rd8_eq.2 ⟨(rd4_apart _ (Or.inr (by omega))).trans (alloc_val _ _ _), alloc_val _ _ _⟩

theorem two_only (m : Mem) (a : ℕ) (r d : Quat) : Only m (alloc4 (alloc4 m a r) (a + 4) d) a 8 := fun i hi =>
  (alloc_only _ _ _ i (by omega)).trans (alloc_only _ _ _ i (by omega))

theorem cp8_some {m : Mem} {a b : ℕ} {p : DQuat} (h : Alive m b 8) (hp : rd8 m a = some p) (hd : Apart b a 8 ∨ b = a) :
    cp8 m b a = some (alloc4 (alloc4 m b p.r) (b + 4) p.d) := by
  obtain ⟨h1, h2⟩ := rd8_eq.1 hp
  have hd2 : Apart b (a + 4) 4 := by unfold Apart at *; omega
  unfold cp8
  rw [seq_some (fun i h1 h2 => h i (by omega) (by omega)) h1 (by unfold Apart at *; omega), Option.bind_some,
    seq_some (alloc_alive _ fun i h1 h2 => h i (by omega) (by omega)) ((rd4_apart _ hd2).trans h2) (by unfold Apart at *; omega)]

/-- The parts are mapped to the eight numbers. -/
def Linked (o : DObj) : Prop := o.r.map = o.arr ∧ o.d.map = o.arr + 4

theorem linked_val {o : DObj} (h : Linked o) (m : Mem) : o.val m = rd8 m o.arr := by
  unfold DObj.val Obj.val rd8
  rw [h.1, h.2]

/-- **C117, dual quaternions.**  Objects made of two parts, and copies, have parts that are mapped to their numbers; they have the value
they were made of, lie in their own buffer, and keep the value whatever happens to other memory.  Assignment
to such objects - also those mapped to memory of the caller - gives them the value of the other, which may be the same object. -/
theorem C117_dual (m : Mem) (b : ℕ) (p : DQuat) (q : DObj) (hb : Alive m b 8) :
    (∃ m' o, dMake m b p = some (m', o) ∧ Linked o ∧ Only m m' b 8 ∧ o.val m' = some p ∧
      ∀ m'', SameAt m' m'' b 8 → o.val m'' = some p) ∧
    (Apart b q.arr 8 → rd8 m q.arr = some p → ∃ m' o, dCopy m b q = some (m', o) ∧ Linked o ∧ Only m m' b 8 ∧ o.val m' = some p ∧
      ∀ m'', SameAt m' m'' b 8 → o.val m'' = some p) ∧
    (∀ a, Linked (dOfPtr b a)) ∧
    (∀ o : DObj, Linked o → Alive m o.arr 8 → (Apart o.arr q.arr 8 ∨ o.arr = q.arr) → rd8 m q.arr = some p →
      ∃ m', dAssign m o q = some m' ∧ Only m m' o.arr 8 ∧ o.val m' = some p) := by
  have hl : ∀ a, Linked (dOfPtr b a) := fun a => ⟨rfl, rfl⟩
  have hk : ∀ m'' : Mem, SameAt (alloc4 (alloc4 m b p.r) (b + 4) p.d) m'' b 8 → (dOfPtr b b).val m'' = some p := by
    intro m'' h
    rw [linked_val (hl b)]
    have h2 := rd8_eq.1 (two_val m b p)
    change rd8 m'' b = some p
    exact rd8_eq.2 ⟨(rd4_same fun i h1 h2 => h i (by omega) (by omega)).trans h2.1,
      (rd4_same fun i h1 h2 => h i (by omega) (by omega)).trans h2.2⟩
  refine ⟨⟨_, dOfPtr b b, ?_, hl b, two_only m b p.r p.d, hk _ (fun _ _ _ => rfl), hk⟩, fun hd hp => ⟨_, dOfPtr b b, ?_, hl b, two_only m b p.r p.d,
    hk _ (fun _ _ _ => rfl), hk⟩, hl, fun o ho ha hd hp => ⟨_, cp8_some ha hp hd, two_only _ _ _ _, ?_⟩⟩
  · have := wr8_some hb p
    unfold wr8 at this
    unfold dMake
    dsimp only [dOfPtr]
    rw [this]
    rfl
  · unfold dCopy
    rw [cp8_some hb hp (Or.inl hd)]
    rfl
  · rw [linked_val ho, two_val]

/-- **C117, eight numbers.**  The object made of eight numbers holds them, but its parts are two identities.  They stay so when another
value is assigned to it; then it compares equal to the other object and acts differently.  A copy of it holds the numbers in its parts. -/
theorem C117_eight_violated (m : Mem) (b : ℕ) (p : DQuat) (hb : Alive m b 16) :
    ∃ m' o, dEight m b p = some (m', o) ∧ rd8 m' o.arr = some p ∧ o.val m' = some ⟨Quat.identity, Quat.identity⟩ ∧
      (∀ q u, Apart (b + 8) q.arr 8 → Apart b q.arr 8 → rd8 m' q.arr = some u → ∃ m'', dAssign m' o q = some m'' ∧
        rd8 m'' o.arr = rd8 m'' q.arr ∧ rd8 m'' o.arr = some u ∧ o.val m'' = some ⟨Quat.identity, Quat.identity⟩) ∧
      (∀ c, Apart b c 8 → Alive m' c 8 → ∃ m'' o', dCopy m' c o = some (m'', o') ∧ o'.val m'' = some p) := by
  set m1 := alloc4 (alloc4 m b p.r) (b + 4) p.d with hm1
  set m2 := alloc4 (alloc4 m1 (b + 8) Quat.identity) (b + 12) Quat.identity with hm2
  have a1 : Alive m1 b 16 := alloc_alive _ (alloc_alive _ hb)
  have hv : rd8 m2 b = some p := by
    have h := rd8_eq.1 (two_val m b p)
    refine rd8_eq.2 ⟨?_, ?_⟩
    · rw [hm2, rd4_apart _ (Or.inr (by omega)), rd4_apart _ (Or.inr (by omega))]; exact h.1
    · rw [hm2, rd4_apart _ (Or.inr (by omega)), rd4_apart _ (Or.inr (by omega))]; exact h.2
  have hi1 : rd4 m2 (b + 8) = some Quat.identity := by
    rw [hm2, rd4_apart _ (Or.inr (by omega)), alloc_val]
  have hi2 : rd4 m2 (b + 12) = some Quat.identity := alloc_val _ _ _
  have hal : Alive m2 b 16 := alloc_alive _ (alloc_alive _ a1)
  refine ⟨m2, ⟨b, b, ⟨b + 8, b + 8⟩, ⟨b + 12, b + 12⟩⟩, ?_, hv, ?_, fun q u hq1 hq2 hu => ?_, fun c hc hca => ?_⟩
  · unfold dEight
    rw [wr8_some (fun i h1 h2 => hb i h1 (by omega)), Option.bind_some, wr4_some (fun i h1 h2 => a1 i (by omega) (by omega)),
      Option.bind_some, wr4_some (alloc_alive _ fun i h1 h2 => a1 i (by omega) (by omega))]
    rfl
  · simp only [DObj.val, Obj.val, hi1, hi2]
    rfl
  · refine ⟨_, cp8_some (b := b) (fun i h1 h2 => hal i h1 (by omega)) hu (Or.inl hq2), ?_, two_val _ _ _, ?_⟩
    · rw [two_val]
      obtain ⟨u1, u2⟩ := rd8_eq.1 hu
      refine (rd8_eq.2 ⟨?_, ?_⟩).symm
      · exact (rd4_same fun i h1 h2 => two_only m2 b u.r u.d i (by unfold Apart at hq2; omega)).trans u1
      · exact (rd4_same fun i h1 h2 => two_only m2 b u.r u.d i (by unfold Apart at hq2; omega)).trans u2
    · have k1 := (rd4_same fun i h1 h2 => two_only m2 b u.r u.d i (Or.inr (by omega))).trans hi1
      have k2 := (rd4_same fun i h1 h2 => two_only m2 b u.r u.d i (Or.inr (by omega))).trans hi2
      simp only [DObj.val, Obj.val, k1, k2]
      rfl
  · refine ⟨alloc4 (alloc4 m2 c p.r) (c + 4) p.d, dOfPtr c c, ?_, ?_⟩
    · unfold dCopy
      rw [cp8_some hca hv (Or.inl (by unfold Apart at *; omega))]
      rfl
    · rw [linked_val ⟨rfl, rfl⟩]
      exact two_val _ _ _

/-! ### The error state of the preintegration -/

/-- **C117, the error state.**  The copy of an `ImuErrorState` holds the nine numbers, but its members `alpha`, `beta` and `gamma` are those of the
original: writing to `alpha` of the copy changes the original and not the copy, and when the original is gone, `alpha` of the
copy refers to memory that no longer exists. -/
theorem C117_error_violated (m : Mem) (a b : ℕ) (x : ℝ) (ha : Alive m a 9) (hb : Alive m b 9) (hd : Apart b a 9) :
    ∃ m' e, eCopy m b (eMake a) = some (m', e) ∧ (∀ i, i < 9 → m' (e.data + i) = m (a + i)) ∧ Only m m' b 9 ∧
      (∃ m'', wr m' e.alpha x = some m'' ∧ m'' a = some x ∧ m'' e.data = m' e.data) ∧
      (∀ m'' : Mem, (∀ i, a ≤ i → i < a + 9 → m'' i = none) → m'' e.alpha = none ∧ m'' e.beta = none ∧ m'' e.gamma = none) := by
  have rd : ∀ c, c + 4 ≤ a + 9 → a ≤ c → ∃ q, rd4 m c = some q := by
    intro c h1 h2
    obtain ⟨v0, h0⟩ := ha c (by omega) (by omega)
    obtain ⟨v1, h1'⟩ := ha (c + 1) (by omega) (by omega)
    obtain ⟨v2, h2'⟩ := ha (c + 2) (by omega) (by omega)
    obtain ⟨v3, h3⟩ := ha (c + 3) (by omega) (by omega)
    exact ⟨⟨v0, v1, v2, v3⟩, rd4_eq.2 ⟨h0, h1', h2', h3⟩⟩
  obtain ⟨r, hr⟩ := rd a (by omega) (by omega)
  obtain ⟨d, hd4⟩ := rd (a + 4) (by omega) (by omega)
  obtain ⟨v8, h8⟩ := ha (a + 8) (by omega) (by omega)
  obtain ⟨w8, k8⟩ := hb (b + 8) (by omega) (by omega)
  set m1 := alloc4 (alloc4 m b r) (b + 4) d with hm1
  have o1 : Only m m1 b 8 := two_only m b r d
  have e8 : m1 (a + 8) = some v8 := (o1 (a + 8) (by unfold Apart at hd; omega)).trans h8
  have f8 : m1 (b + 8) = some w8 := (o1 (b + 8) (by omega)).trans k8
  have hm' : eCopy m b (eMake a) = some (Function.update m1 (b + 8) (some v8), ⟨b, a, a + 3, a + 6⟩) := by
    unfold eCopy cp9
    dsimp only [eMake]
    have hc : cp8 m b a = some m1 :=
      cp8_some (p := ⟨r, d⟩) (fun i h1 h2 => hb i h1 (by omega)) (rd8_eq.2 ⟨hr, hd4⟩) (Or.inl (by unfold Apart at *; omega))
    rw [hc, Option.bind_some, e8, Option.bind_some, wr_some f8]
    rfl
  obtain ⟨r0, r1, r2, r3⟩ := rd4_eq.1 hr
  obtain ⟨d0, d1, d2, d3⟩ := rd4_eq.1 hd4
  obtain ⟨x1, x2⟩ := rd8_eq.1 (two_val m b ⟨r, d⟩)
  obtain ⟨p0, p1, p2, p3⟩ := rd4_eq.1 x1
  obtain ⟨q0, q1, q2, q3⟩ := rd4_eq.1 x2
  have oa : Function.update m1 (b + 8) (some v8) a = some r.w := by
    rw [upd_ne (by unfold Apart at hd; omega), o1 a (by unfold Apart at hd; omega), r0]
  refine ⟨_, _, hm', ?_, ?_, ⟨_, wr_some oa x, Function.update_self _ _ _, ?_⟩, fun m'' h => ⟨h _ (by dsimp only; omega) (by dsimp only; omega), h _ (by dsimp only; omega) (by dsimp only; omega),
    h _ (by dsimp only; omega) (by dsimp only; omega)⟩⟩
  · intro i hi
    dsimp only
    rcases (by omega : i = 0 ∨ i = 1 ∨ i = 2 ∨ i = 3 ∨ i = 4 ∨ i = 5 ∨ i = 6 ∨ i = 7 ∨ i = 8) with
      rfl | rfl | rfl | rfl | rfl | rfl | rfl | rfl | rfl
    · rw [upd_ne (by omega)]; exact p0.trans r0.symm
    · rw [upd_ne (by omega)]; exact p1.trans r1.symm
    · rw [upd_ne (by omega)]; exact p2.trans r2.symm
    · rw [upd_ne (by omega)]; exact p3.trans r3.symm
    · rw [upd_ne (by omega)]; exact q0.trans d0.symm
    · rw [upd_ne (by omega)]; exact q1.trans d1.symm
    · rw [upd_ne (by omega)]; exact q2.trans d2.symm
    · rw [upd_ne (by omega)]; exact q3.trans d3.symm
    · rw [Function.update_self, h8]
  · intro i hi
    rw [upd_ne (by omega)]
    exact o1 i (by omega)
  · dsimp only
    rw [upd_ne (by unfold Apart at hd; omega)]

/-- Two quaternions one after the other in memory, and room for a copy: the hypotheses of `C117_copy` and `C117_mul_partial` hold. -/
example : let m := alloc4 (alloc4 (fun i => if i < 100 then some 0 else none) 0 ⟨0, 1, 0, 0⟩) 4 ⟨3 / 5, 0, 4 / 5, 0⟩
    Alive m 8 4 ∧ Apart 8 4 4 ∧ (Obj.mk 0 0).val m = some ⟨0, 1, 0, 0⟩ ∧ (Obj.mk 4 4).val m = some ⟨3 / 5, 0, 4 / 5, 0⟩ ∧
      Apart (Obj.mk 0 0).map (Obj.mk 4 4).map 4 :=
  ⟨alloc_alive _ (alloc_alive _ fun i h1 h2 => ⟨0, if_pos (by omega)⟩), Or.inr (by omega),
    (rd4_apart _ (Or.inr (by simp))).trans (alloc_val _ _ _), alloc_val _ _ _, Or.inl (by simp)⟩

end Verif.Props.QuatMem
