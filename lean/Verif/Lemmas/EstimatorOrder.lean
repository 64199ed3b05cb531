import Verif.Lemmas.Estimator
/-! # The estimator against the unbounded in-order history (used by Props/Estimator.lean) -/
namespace Verif.Est
open Verif.Sat
variable {σ υ ζ : Type}

/-- Two times of the set are equal or more than half a quantum apart. -/
def Sep (P : Int → Prop) : Prop := ∀ a b, P a → P b → a < b → HALF < b - a

/-- The observations of a bundle carry its time and their satellites, if known, can be looked up. -/
def Served (cache : List Nat) (mgr : Manager) (m : Meas υ ζ) : Prop :=
  match m.z with
  | .obs l => ∀ o ∈ l, o.t = m.t ∧ (cacheId o.gnss o.sat ∈ cache → ∃ s, getSat mgr o.gnss o.sat = .found s)
  | _ => True

theorem bundleOk_of {cache : List Nat} {mgr : Manager} {m : Meas υ ζ} (hs : Served cache mgr m)
    (hk : knownSats cache m.z = true) {l : List (Obs ζ)} (hl : m.z = .obs l) : bundleOk cache mgr m.t l = true := by
  unfold Served at hs
  rw [hl] at hs hk
  dsimp only [knownSats] at hs hk
  unfold bundleOk
  rw [List.all_eq_true] at hk ⊢
  intro o ho
  have h1 := hk o ho
  obtain ⟨h2, h3⟩ := hs o ho
  rw [decide_eq_true_eq] at h1
  obtain ⟨s, h4⟩ := h3 h1
  simp [h1, h2, h4]

/-- The update part of handling a measurement. -/
def app (F : Filter σ υ ζ) (mgr : Manager) (m : Meas υ ζ) (b : Snap σ υ) : Snap σ υ :=
  match m.z with
  | .imu _ => b
  | .obs l => { b with x := F.updObs mgr b.x l b.u }
  | .pointPos z => { b with x := F.updPointPos b.x z b.u }
  | .fixHold z => { b with x := F.updFixHold b.x z }

theorem app_t (F : Filter σ υ ζ) (mgr : Manager) (m : Meas υ ζ) (b : Snap σ υ) : (app F mgr m b).t = b.t := by
  unfold app; split <;> rfl

/-- The input a prediction to the time of the measurement uses. -/
def inputOf (m : Meas υ ζ) (b : Snap σ υ) : υ :=
  match m.z with
  | .imu u => u
  | _ => b.u

/-- The snapshot a prediction makes. -/
def pred (F : Filter σ υ ζ) (m : Meas υ ζ) (b : Snap σ υ) : Snap σ υ :=
  ⟨m.t, F.predict b.x (m.t - b.t) (inputOf m b), inputOf m b⟩

/-- Handling on an unbounded history, exact comparison. -/
def istep (F : Filter σ υ ζ) (mgr : Manager) (h : List (Snap σ υ)) (m : Meas υ ζ) : List (Snap σ υ) :=
  match h.getLast? with
  | none => h
  | some b => if b.t < m.t then h ++ [app F mgr m (pred F m b)] else h.dropLast ++ [app F mgr m b]

theorem handleMeas_eq {F : Filter σ υ ζ} {cache : List Nat} {mgr : Manager} {st : List (Snap σ υ)} {m : Meas υ ζ}
    {b : Snap σ υ} (hb : st.getLast? = some b) (hs : Served cache mgr m) (hk : knownSats cache m.z = true)
    (hsep : b.t < m.t → HALF < m.t - b.t) :
    handleMeas F cache mgr st m =
      .ok (if b.t < m.t then emplaceBack st (app F mgr m (pred F m b)) else st.dropLast ++ [app F mgr m b]) := by
  have hc : ∀ u, handleImu F st m.t u =
      .ok (if b.t < m.t then emplaceBack st ⟨m.t, F.predict b.x (m.t - b.t) u, u⟩ else st) := by
    intro u
    unfold handleImu
    rw [hb]
    dsimp only
    by_cases h : b.t < m.t
    · rw [if_pos h, if_pos (hsep h), if_pos h]
    · rw [if_neg h, if_neg h]
  have hcu : catchUp F st m.t =
      .ok (if b.t < m.t then emplaceBack st ⟨m.t, F.predict b.x (m.t - b.t) b.u, b.u⟩ else st) := by
    unfold catchUp
    rw [hb]
    dsimp only
    by_cases h : b.t < m.t
    · rw [if_pos (hsep h), hc]
    · have : ¬ m.t - b.t > HALF := by simp only [HALF]; omega
      rw [if_neg this, if_neg h]
  have hm : ∀ f : Snap σ υ → σ, modifyBack
      (if b.t < m.t then emplaceBack st ⟨m.t, F.predict b.x (m.t - b.t) b.u, b.u⟩ else st) f =
      .ok (if b.t < m.t then emplaceBack st
        ⟨m.t, f ⟨m.t, F.predict b.x (m.t - b.t) b.u, b.u⟩, b.u⟩ else st.dropLast ++ [{ b with x := f b }]) := by
    intro f
    by_cases h : b.t < m.t
    · simp only [if_pos h]
      simp [modifyBack, emplaceBack]
    · simp only [if_neg h]
      unfold modifyBack
      rw [hb]
  unfold handleMeas
  cases hz : m.z with
  | imu u =>
    dsimp only
    rw [hc]
    have hdl : st.dropLast ++ [b] = st := by
      obtain ⟨ys, rfl⟩ := List.getLast?_eq_some_iff.1 hb
      simp
    simp only [app, pred, inputOf, hz, hdl]
  | obs l =>
    dsimp only
    rw [hcu, Res.bind, if_pos (bundleOk_of hs hk hz), hm]
    simp only [app, pred, inputOf, hz]
  | pointPos z =>
    dsimp only
    rw [hcu, Res.bind, hm]
    simp only [app, pred, inputOf, hz]
  | fixHold z =>
    dsimp only
    rw [hcu, Res.bind, hm]
    simp only [app, pred, inputOf, hz]

theorem suffix_last {st h : List (Snap σ υ)} (hsuf : st <:+ h) (hne : st ≠ []) : h.getLast? = st.getLast? := by
  obtain ⟨p, rfl⟩ := hsuf
  rw [List.getLast?_append]
  cases hx : st.getLast? with
  | none => rw [List.getLast?_eq_none_iff] at hx; exact absurd hx hne
  | some y => simp

theorem exists_last {st : List (Snap σ υ)} (hne : st ≠ []) : ∃ b, st.getLast? = some b := by
  cases hx : st.getLast? with
  | none => rw [List.getLast?_eq_none_iff] at hx; exact absurd hx hne
  | some y => exact ⟨y, rfl⟩

theorem step_suffix {F : Filter σ υ ζ} {cache : List Nat} {mgr : Manager} {st h : List (Snap σ υ)} {m : Meas υ ζ}
    (hsuf : st <:+ h) (hne : st ≠ []) (hs : Served cache mgr m) (hk : knownSats cache m.z = true)
    (hsep : ∀ b ∈ st, b.t < m.t → HALF < m.t - b.t) :
    ∃ st', handleMeas F cache mgr st m = .ok st' ∧ st' <:+ istep F mgr h m ∧ st' ≠ [] ∧
      (∀ s ∈ st', s.t = m.t ∨ ∃ s0 ∈ st, s.t = s0.t) ∧
      ∀ y, (∀ s ∈ st, y ≤ s.t) → ∀ s ∈ st', y ≤ s.t := by
  obtain ⟨b, hb⟩ := exists_last hne
  have hbm : b ∈ st := List.mem_of_getLast? hb
  have hh : h.getLast? = some b := by rw [suffix_last hsuf hne, hb]
  refine ⟨_, handleMeas_eq hb hs hk (hsep b hbm), ?_, ?_, ?_, ?_⟩
  · unfold istep
    rw [hh]
    dsimp only
    split_ifs with h1
    · unfold emplaceBack
      obtain ⟨p, rfl⟩ := hsuf
      split_ifs with h2
      · refine ⟨p ++ st.take 1, ?_⟩
        simp only [List.append_assoc]
        rw [← List.append_assoc (st.take 1), List.take_append_drop]
      · exact ⟨p, by simp⟩
    · obtain ⟨p, rfl⟩ := hsuf
      obtain ⟨ys, rfl⟩ := List.getLast?_eq_some_iff.1 hb
      refine ⟨p, ?_⟩
      rw [← List.append_assoc p ys [b], List.dropLast_concat, List.dropLast_concat, List.append_assoc]
  · split_ifs
    · simp [emplaceBack]
    · simp
  · intro s hsm
    split_ifs at hsm with h1
    · unfold emplaceBack at hsm
      rw [List.mem_append, List.mem_singleton] at hsm
      rcases hsm with hsm | rfl
      · right
        split_ifs at hsm
        · exact ⟨s, List.mem_of_mem_drop hsm, rfl⟩
        · exact ⟨s, hsm, rfl⟩
      · left; rw [app_t]; rfl
    · rw [List.mem_append, List.mem_singleton] at hsm
      right
      rcases hsm with hsm | rfl
      · exact ⟨s, List.dropLast_subset _ hsm, rfl⟩
      · exact ⟨b, hbm, app_t F mgr m b⟩
  · intro y hy s hsm
    split_ifs at hsm with h1
    · unfold emplaceBack at hsm
      rw [List.mem_append, List.mem_singleton] at hsm
      rcases hsm with hsm | rfl
      · split_ifs at hsm
        · exact hy s (List.mem_of_mem_drop hsm)
        · exact hy s hsm
      · rw [app_t]
        have := hy b hbm
        simp only [pred]
        omega
    · rw [List.mem_append, List.mem_singleton] at hsm
      rcases hsm with hsm | rfl
      · exact hy s (List.dropLast_subset _ hsm)
      · rw [app_t]; exact hy b hbm

theorem istep_ne {F : Filter σ υ ζ} {mgr : Manager} {h : List (Snap σ υ)} {m : Meas υ ζ} (hne : h ≠ []) :
    istep F mgr h m ≠ [] := by
  unfold istep
  split
  · exact hne
  · split_ifs <;> simp

/-- The whole history of snapshots of in-order processing without bounds. -/
def hist (F : Filter σ υ ζ) (mgr : Manager) (s0 : Snap σ υ) (l : List (Meas υ ζ)) : List (Snap σ υ) :=
  l.foldl (istep F mgr) [s0]

theorem foldl_istep_ne {F : Filter σ υ ζ} {mgr : Manager} {l : List (Meas υ ζ)} {h : List (Snap σ υ)} (hne : h ≠ []) :
    l.foldl (istep F mgr) h ≠ [] := by
  induction l generalizing h with
  | nil => exact hne
  | cons m l ih => exact ih (istep_ne hne)

theorem roll_suffix {F : Filter σ υ ζ} {cache : List Nat} {mgr : Manager} {P : Int → Prop} (hP : Sep P) :
    ∀ {l : List (Meas υ ζ)} {st h : List (Snap σ υ)}, st <:+ h → st ≠ [] → (∀ s ∈ st, P s.t) →
      (∀ m ∈ l, P m.t ∧ Served cache mgr m ∧ knownSats cache m.z = true) →
    ∃ st', rollFilter F cache mgr st l = .ok st' ∧ st' <:+ l.foldl (istep F mgr) h ∧ st' ≠ [] ∧
      (∀ s ∈ st', P s.t) ∧ ∀ y, (∀ s ∈ st, y ≤ s.t) → ∀ s ∈ st', y ≤ s.t := by
  intro l
  induction l with
  | nil => intro st h h1 h2 h3 _; exact ⟨st, rfl, h1, h2, h3, fun _ hy => hy⟩
  | cons m l ih =>
    intro st h h1 h2 h3 h4
    obtain ⟨p1, p2, p3⟩ := h4 m (by simp)
    obtain ⟨st1, a1, a2, a3, a4, a5⟩ := step_suffix (F := F) h1 h2 p2 p3 (fun b hb => hP _ _ (h3 b hb) p1)
    obtain ⟨st2, b1, b2, b3, b4, b5⟩ := ih a2 a3 (by
      intro s hs
      rcases a4 s hs with h | ⟨s0, h, e⟩
      · rw [h]; exact p1
      · rw [e]; exact h3 s0 h) (fun x hx => h4 x (by simp [hx]))
    refine ⟨st2, ?_, b2, b3, b4, fun y hy => b5 y (a5 y hy)⟩
    rw [rollFilter, a1]
    exact b1

/-! ### Shape of the in-order history -/

theorem istep_inc {F : Filter σ υ ζ} {mgr : Manager} {h : List (Snap σ υ)} {m : Meas υ ζ} (hi : Inc h) :
    Inc (istep F mgr h m) := by
  unfold istep
  split
  · exact hi
  · rename_i b hb
    obtain ⟨ys, rfl⟩ := List.getLast?_eq_some_iff.1 hb
    have hi2 := List.pairwise_append.1 hi
    split_ifs with h1
    · refine List.pairwise_append.2 ⟨hi, by simp, ?_⟩
      intro a ha c hc
      rw [List.mem_singleton] at hc
      rw [hc, app_t]
      simp only [pred]
      rw [List.mem_append, List.mem_singleton] at ha
      rcases ha with ha | rfl
      · exact lt_trans (hi2.2.2 a ha b (by simp)) h1
      · exact h1
    · rw [List.dropLast_concat]
      refine List.pairwise_append.2 ⟨hi2.1, by simp, ?_⟩
      intro a ha c hc
      rw [List.mem_singleton] at hc
      rw [hc, app_t]
      exact hi2.2.2 a ha b (by simp)

theorem istep_times {F : Filter σ υ ζ} {mgr : Manager} {h : List (Snap σ υ)} {m : Meas υ ζ} :
    ∀ s ∈ istep F mgr h m, s.t = m.t ∨ ∃ s0 ∈ h, s.t = s0.t := by
  intro s hs
  unfold istep at hs
  split at hs
  · exact Or.inr ⟨s, hs, rfl⟩
  · rename_i b hb
    split_ifs at hs with h1 <;> rw [List.mem_append, List.mem_singleton] at hs <;> rcases hs with hs | rfl
    · exact Or.inr ⟨s, hs, rfl⟩
    · exact Or.inl (by rw [app_t]; rfl)
    · exact Or.inr ⟨s, List.dropLast_subset _ hs, rfl⟩
    · exact Or.inr ⟨b, List.mem_of_getLast? hb, app_t F mgr m b⟩

theorem istep_last {F : Filter σ υ ζ} {mgr : Manager} {h : List (Snap σ υ)} {m : Meas υ ζ} {b : Snap σ υ}
    (hb : h.getLast? = some b) : ∃ c, (istep F mgr h m).getLast? = some c ∧ b.t ≤ c.t ∧ m.t ≤ c.t := by
  unfold istep
  rw [hb]
  dsimp only
  split_ifs with h1
  · exact ⟨app F mgr m (pred F m b), by simp, by rw [app_t]; simp only [pred]; omega, by rw [app_t]; simp [pred]⟩
  · exact ⟨app F mgr m b, by simp, by rw [app_t], by rw [app_t]; omega⟩

theorem hist_inc (F : Filter σ υ ζ) (mgr : Manager) (s0 : Snap σ υ) (l : List (Meas υ ζ)) : Inc (hist F mgr s0 l) := by
  unfold hist
  have : ∀ (l : List (Meas υ ζ)) (h : List (Snap σ υ)), Inc h → Inc (l.foldl (istep F mgr) h) := by
    intro l
    induction l with
    | nil => intro h hh; exact hh
    | cons m l ih => intro h hh; exact ih _ (istep_inc hh)
  exact this l _ (by simp [Inc])

theorem hist_times (F : Filter σ υ ζ) (mgr : Manager) (s0 : Snap σ υ) (l : List (Meas υ ζ)) :
    ∀ s ∈ hist F mgr s0 l, s.t = s0.t ∨ ∃ m ∈ l, s.t = m.t := by
  induction l using List.reverseRecOn with
  | nil => intro s hs; simp [hist] at hs; exact Or.inl (by rw [hs])
  | append_singleton l m ih =>
    intro s hs
    unfold hist at hs ih
    rw [List.foldl_append] at hs
    rcases istep_times s hs with h | ⟨s1, h1, h2⟩
    · exact Or.inr ⟨m, by simp, h⟩
    · rcases ih s1 h1 with h | ⟨m1, h3, h4⟩
      · exact Or.inl (by rw [h2, h])
      · exact Or.inr ⟨m1, by simp [h3], by rw [h2, h4]⟩

theorem hist_last (F : Filter σ υ ζ) (mgr : Manager) (s0 : Snap σ υ) (l : List (Meas υ ζ)) :
    ∃ b, (hist F mgr s0 l).getLast? = some b ∧ s0.t ≤ b.t ∧ ∀ m ∈ l, m.t ≤ b.t := by
  induction l using List.reverseRecOn with
  | nil => exact ⟨s0, rfl, le_refl _, by simp⟩
  | append_singleton l m ih =>
    obtain ⟨b, h1, h2, h3⟩ := ih
    obtain ⟨c, c1, c2, c3⟩ := istep_last (F := F) (mgr := mgr) (m := m) h1
    refine ⟨c, ?_, by omega, ?_⟩
    · unfold hist at *
      rw [List.foldl_append]
      exact c1
    · intro x hx
      rw [List.mem_append, List.mem_singleton] at hx
      rcases hx with hx | rfl
      · have := h3 x hx; omega
      · exact c3

/-- Snapshots up to `d` are not changed by later measurements. -/
theorem hist_split (F : Filter σ υ ζ) (mgr : Manager) {d : Int} :
    ∀ (B : List (Meas υ ζ)) (h C : List (Snap σ υ)), h ≠ [] → (∀ s ∈ h, s.t ≤ d) → (∀ s ∈ C, d < s.t) →
      (∀ m ∈ B, d < m.t) → ∃ C', B.foldl (istep F mgr) (h ++ C) = h ++ C' ∧ ∀ s ∈ C', d < s.t := by
  intro B
  induction B with
  | nil => intro h C _ _ hC _; exact ⟨C, rfl, hC⟩
  | cons m B ih =>
    intro h C hne hh hC hB
    have hm : d < m.t := hB m (by simp)
    have : ∃ C1, istep F mgr (h ++ C) m = h ++ C1 ∧ ∀ s ∈ C1, d < s.t := by
      obtain ⟨b, hb⟩ := exists_last (st := h ++ C) (by simp [hne])
      unfold istep
      rw [hb]
      dsimp only
      split_ifs with h1
      · refine ⟨C ++ [app F mgr m (pred F m b)], by simp, ?_⟩
        intro s hs
        rw [List.mem_append, List.mem_singleton] at hs
        rcases hs with hs | rfl
        · exact hC s hs
        · rw [app_t]; exact hm
      · rcases List.eq_nil_or_concat C with rfl | ⟨C0, c, rfl⟩
        · rw [List.append_nil] at hb
          have := hh b (List.mem_of_getLast? hb)
          omega
        · rw [List.concat_eq_append] at hb hC ⊢
          rw [← List.append_assoc] at hb ⊢
          rw [List.getLast?_concat] at hb
          cases hb
          rw [List.dropLast_concat, List.append_assoc]
          refine ⟨_, rfl, ?_⟩
          intro s hs
          rw [List.mem_append, List.mem_singleton] at hs
          rcases hs with hs | rfl
          · exact hC s (by simp [hs])
          · rw [app_t]; exact hC _ (by simp)
    obtain ⟨C1, e1, h1⟩ := this
    obtain ⟨C2, e2, h2⟩ := ih h C1 hne hh h1 (fun x hx => hB x (by simp [hx]))
    exact ⟨C2, by rw [List.foldl_cons, e1]; exact e2, h2⟩

/-! ### The rewind and the pruning -/

theorem popBackWhile_ok {d : Int} : ∀ {l : List (Snap σ υ)}, (∃ s ∈ l, s.t ≤ d) → ∃ r, popBackWhile d l = .ok r := by
  intro l
  induction l with
  | nil => intro h; simp at h
  | cons a l ih =>
    intro h
    unfold popBackWhile
    split_ifs with h1
    · obtain ⟨s, hs, hd⟩ := h
      rw [List.mem_cons] at hs
      rcases hs with rfl | hs
      · omega
      · exact ih ⟨s, hs, hd⟩
    · exact ⟨_, rfl⟩

theorem popFrontWhile_ok {d : Int} : ∀ {l : List (Snap σ υ)}, (∃ s ∈ l, d - s.t ≤ HALF) → ∃ r, popFrontWhile d l = .ok r := by
  intro l
  induction l with
  | nil => intro h; simp at h
  | cons a l ih =>
    intro h
    unfold popFrontWhile
    split_ifs with h1
    · obtain ⟨s, hs, hd⟩ := h
      rw [List.mem_cons] at hs
      rcases hs with rfl | hs
      · omega
      · exact ih ⟨s, hs, hd⟩
    · exact ⟨_, rfl⟩

/-- The element `lower_bound` finds after the insertion has the time of the inserted one. -/
theorem lower_bound_time {ms : List (Meas υ ζ)} (hs : MSorted ms) (m : Meas υ ζ) (hm : m ∈ ms) :
    ∃ c, (ms.dropWhile (fun x => keyLt x.t x.z.index m.t 0)).head? = some c ∧ c.t = m.t := by
  have hp : (fun x : Meas υ ζ => keyLt x.t x.z.index m.t 0) = fun x => decide (x.t < m.t) := by
    funext x
    rw [Bool.eq_iff_iff, keyLt_zero, decide_eq_true_eq]
  rw [hp]
  induction ms with
  | nil => simp at hm
  | cons a r ih =>
    rw [List.dropWhile_cons]
    rw [List.mem_cons] at hm
    split_ifs with h
    · rw [decide_eq_true_eq] at h
      rcases hm with rfl | hm
      · omega
      · exact ih (List.pairwise_cons.1 hs).2 hm
    · refine ⟨a, rfl, ?_⟩
      rw [decide_eq_true_eq] at h
      rcases hm with rfl | hm
      · rfl
      · have := (List.pairwise_cons.1 hs).1 m hm
        unfold Meas.lt at this
        rw [Bool.eq_false_iff, ne_eq, keyLt_iff] at this
        omega

/-- The rewind keeps exactly the snapshots up to the measurement time. -/
theorem rewind_ok {ms : List (Meas υ ζ)} {st : List (Snap σ υ)} (hs : MSorted ms) (m : Meas υ ζ) (hm : m ∈ ms)
    (hi : Inc st) (hf : ∃ s ∈ st, s.t ≤ m.t) :
    ∃ st' p, rewind ms st m.t = .ok st' ∧ st = st' ++ p ∧ st' ≠ [] ∧ (∀ s ∈ st', s.t ≤ m.t) ∧ ∀ s ∈ p, m.t < s.t := by
  have hne : st ≠ [] := by obtain ⟨s, h, _⟩ := hf; exact List.ne_nil_of_mem h
  obtain ⟨b, hb⟩ := exists_last hne
  unfold rewind
  rw [hb]
  dsimp only
  have lastle : ∀ {l : List (Snap σ υ)} {c : Snap σ υ}, Inc (l ++ [c]) → ∀ s ∈ l ++ [c], s.t ≤ c.t := by
    intro l c h s hs
    rw [List.mem_append, List.mem_singleton] at hs
    rcases hs with hs | rfl
    · exact le_of_lt ((List.pairwise_append.1 h).2.2 s hs c (by simp))
    · exact le_refl _
  split_ifs with h1
  · obtain ⟨c, hc, hct⟩ := lower_bound_time hs m hm
    rw [hc]
    dsimp only
    rw [hct]
    obtain ⟨r, hr⟩ := popBackWhile_ok (d := m.t) (l := st.reverse) (by
      obtain ⟨s, h, e⟩ := hf; exact ⟨s, by simp [h], e⟩)
    obtain ⟨p, e, hp, c, q, hq, hcq⟩ := popBackWhile_suffix hr
    rw [hr]
    have hst : st = r.reverse ++ p.reverse := by rw [← List.reverse_append, ← e, List.reverse_reverse]
    refine ⟨r.reverse, p.reverse, rfl, hst, by rw [hq]; simp, ?_, ?_⟩
    · intro s hsm
      rw [hst, hq] at hi
      rw [hq, List.reverse_cons] at hsm
      have hi1 : Inc (q.reverse ++ [c]) := by
        have := hi.sublist (List.sublist_append_left _ _)
        rwa [List.reverse_cons] at this
      have := lastle hi1 s hsm
      omega
    · intro s hsm
      exact hp s (by simpa using hsm)
  · refine ⟨st, [], rfl, by simp, hne, ?_, by simp⟩
    obtain ⟨ys, rfl⟩ := List.getLast?_eq_some_iff.1 hb
    intro s hsm
    have := lastle hi s hsm
    omega

/-! ### No failure while the times are separated -/

/-- Everything the estimator holds lies on the separated time set and can be processed. -/
structure Healthy (P : Int → Prop) (e : Estimator σ υ ζ) : Prop where
  inv : Inv e
  times : ∀ s ∈ e.st, P s.t
  meas : ∀ m ∈ e.ms, P m.t ∧ Served e.cache e.mgr m ∧ knownSats e.cache m.z = true

theorem mem_insert {ms : List (Meas υ ζ)} {m : Meas υ ζ} {p : Meas υ ζ → Bool} :
    ∀ x ∈ ms.takeWhile p ++ m :: ms.dropWhile p, x = m ∨ x ∈ ms := by
  intro x hx
  rw [List.mem_append, List.mem_cons] at hx
  rcases hx with hx | rfl | hx
  · exact Or.inr ((List.takeWhile_sublist _).subset hx)
  · exact Or.inl rfl
  · exact Or.inr ((List.dropWhile_sublist _).subset hx)

theorem addMeasurement_healthy {F : Filter σ υ ζ} {P : Int → Prop} (hP : Sep P) {e : Estimator σ υ ζ}
    (he : Healthy P e) {m : Meas υ ζ} (hm : P m.t) (hs : Served e.cache e.mgr m) :
    ∃ r e', addMeasurement F e m = .ok (r, e') ∧ Healthy P e' ∧ e'.cache = e.cache ∧ e'.mgr = e.mgr := by
  obtain ⟨f, hf⟩ : ∃ f, e.st.head? = some f := by
    cases h : e.st.head? with
    | none => rw [List.head?_eq_none_iff] at h; exact absurd h he.inv.ne
    | some f => exact ⟨f, rfl⟩
  have hfm : f ∈ e.st := List.mem_of_head? hf
  by_cases h1 : f.t - m.t > HALF
  · exact ⟨.stale, e, by unfold addMeasurement; rw [hf]; dsimp only; rw [if_pos h1], he, rfl, rfl⟩
  by_cases h2 : knownSats e.cache m.z = false
  · exact ⟨.unknownSatellite, e, by unfold addMeasurement; rw [hf]; dsimp only; rw [if_neg h1, if_pos h2], he, rfl, rfl⟩
  have hft : f.t ≤ m.t := by
    by_contra hc
    have := hP m.t f.t hm (he.times f hfm) (by omega)
    omega
  have hkm : knownSats e.cache m.z = true := by simpa using h2
  suffices hx : ∃ e', insertAndRoll F e m = .ok e' ∧ (∀ s ∈ e'.st, P s.t) ∧ (∀ x ∈ e'.ms, x = m ∨ x ∈ e.ms) ∧
      e'.cache = e.cache ∧ e'.mgr = e.mgr by
    obtain ⟨e', a1, a2, a3, a4, a5⟩ := hx
    refine ⟨.none, e', ?_, ⟨(insertAndRoll_inv a1 he.inv).1, a2, ?_⟩, a4, a5⟩
    · unfold addMeasurement; rw [hf]; dsimp only; rw [if_neg h1, if_neg h2, a1]; rfl
    · intro x hx
      rw [a4, a5]
      rcases a3 x hx with rfl | h
      · exact ⟨hm, hs, hkm⟩
      · exact he.meas x h
  unfold insertAndRoll
  dsimp only
  obtain ⟨st1, p, b1, b2, b3, b4, b5⟩ := rewind_ok (st := e.st) (insert_sorted he.inv.sorted m) m (by simp) he.inv.inc
    ⟨f, hfm, hft⟩
  have hst1 : ∀ s ∈ st1, P s.t := fun s h => he.times s (by rw [b2]; simp [h])
  obtain ⟨st2, c1, c2, c3, c4, c5⟩ := roll_suffix (F := F) (cache := e.cache) (mgr := e.mgr) hP
    (l := m :: e.ms.dropWhile (fun x => !m.lt x)) (h := st1) (List.suffix_refl st1) b3 hst1 (by
      intro x hx
      rw [List.mem_cons] at hx
      rcases hx with rfl | hx
      · exact ⟨hm, hs, hkm⟩
      · exact he.meas x ((List.dropWhile_sublist _).subset hx))
  obtain ⟨l, hl⟩ : ∃ l, (e.ms.takeWhile (fun x => !m.lt x) ++ m :: e.ms.dropWhile (fun x => !m.lt x)).getLast? = some l := by
    cases h : (e.ms.takeWhile (fun x => !m.lt x) ++ m :: e.ms.dropWhile (fun x => !m.lt x)).getLast? with
    | none => rw [List.getLast?_eq_none_iff] at h; simp at h
    | some l => exact ⟨l, rfl⟩
  have hl' : (m :: e.ms.dropWhile (fun x => !m.lt x)).getLast? = some l := by
    rw [List.getLast?_append] at hl
    cases hq : (m :: e.ms.dropWhile (fun x => !m.lt x)).getLast? with
    | none => simp at hq
    | some q => rw [hq] at hl; simpa using hl
  have i1 : Inc st1 := by
    have := he.inv.inc
    rw [b2] at this
    exact this.sublist (List.sublist_append_left _ _)
  have l1 : st1.length ≤ CAP := by
    have := he.inv.len
    rw [b2, List.length_append] at this
    omega
  obtain ⟨_, _, b, hb, hbt⟩ := rollFilter_fit c1 i1 l1 hl'
  obtain ⟨st3, d1⟩ := popFrontWhile_ok (d := l.t - MAX_DELAY) (l := st2) ⟨b, List.mem_of_getLast? hb, by
    simp only [MAX_DELAY, HALF] at *; omega⟩
  obtain ⟨p3, d2, _⟩ := popFrontWhile_suffix d1
  refine ⟨⟨List.dropWhile (fun m => keyLt m.t m.z.index (l.t - MAX_DELAY) 0)
    (e.ms.takeWhile (fun x => !m.lt x) ++ m :: e.ms.dropWhile (fun x => !m.lt x)), st3, e.cache, e.mgr⟩,
    ?_, ?_, ?_, rfl, rfl⟩
  · rw [b1]
    show (rollFilter F e.cache e.mgr st1 _).bind _ = _
    rw [c1]
    show dropOldMeasurements _ = _
    unfold dropOldMeasurements
    dsimp only
    rw [hl]
    dsimp only
    rw [d1]
    rfl
  · intro s h
    exact c4 s (by rw [d2]; simp [h])
  · intro x hx
    exact mem_insert x ((List.dropWhile_sublist _).subset hx)

end Verif.Est
