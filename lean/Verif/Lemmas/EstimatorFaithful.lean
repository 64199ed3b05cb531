import Verif.Lemmas.EstimatorOrder
/-! # The estimator follows the in-order history (used by Props/Estimator.lean) -/
namespace Verif.Est
open Verif.Sat
variable {σ υ ζ : Type}

/-- The estimator holds the recent end of the in-order history of `full`. -/
structure Faithful (F : Filter σ υ ζ) (P : Int → Prop) (s0 : Snap σ υ) (e : Estimator σ υ ζ)
    (full : List (Meas υ ζ)) : Prop where
  healthy : Healthy P e
  split : ∃ D, full = D ++ e.ms ∧ ∀ d ∈ D, ∀ s ∈ e.st, d.t ≤ s.t
  sorted : MSorted full
  suf : e.st <:+ hist F e.mgr s0 full
  start : P s0.t
  times : ∀ m ∈ full, P m.t

theorem sorted_time {ms : List (Meas υ ζ)} (hs : MSorted ms) : ms.Pairwise fun a b => a.t ≤ b.t := by
  refine List.Pairwise.imp ?_ hs
  intro a b h
  unfold Meas.lt at h
  rw [Bool.eq_false_iff, ne_eq, keyLt_iff] at h
  omega

theorem suffix_cut {X Y h C : List (Snap σ υ)} {st1 : List (Snap σ υ)} {d : Int} (e : X ++ (st1 ++ Y) = h ++ C)
    (h1 : ∀ s ∈ X ++ st1, s.t ≤ d) (h2 : ∀ s ∈ Y, d < s.t) (h3 : ∀ s ∈ h, s.t ≤ d) (h4 : ∀ s ∈ C, d < s.t) :
    X ++ st1 = h := by
  have hfil := congrArg (List.filter fun s => decide (s.t ≤ d)) e
  have e1 : (X ++ st1).filter (fun s => decide (s.t ≤ d)) = X ++ st1 :=
    List.filter_eq_self.2 (fun s hs => decide_eq_true (h1 s hs))
  have e2 : h.filter (fun s => decide (s.t ≤ d)) = h :=
    List.filter_eq_self.2 (fun s hs => decide_eq_true (h3 s hs))
  have e3 : Y.filter (fun s => decide (s.t ≤ d)) = [] :=
    List.filter_eq_nil_iff.2 (fun s hs => by have := h2 s hs; simp only [decide_eq_true_eq]; omega)
  have e4 : C.filter (fun s => decide (s.t ≤ d)) = [] :=
    List.filter_eq_nil_iff.2 (fun s hs => by have := h4 s hs; simp only [decide_eq_true_eq]; omega)
  rw [← List.append_assoc, List.filter_append (l₁ := X ++ st1), List.filter_append (l₁ := h), e1, e2, e3, e4,
    List.append_nil, List.append_nil] at hfil
  exact hfil

/-- No snapshot of the history precedes the start. -/
theorem hist_ge (F : Filter σ υ ζ) (mgr : Manager) (s0 : Snap σ υ) (full : List (Meas υ ζ)) :
    ∀ s ∈ hist F mgr s0 full, s0.t ≤ s.t := by
  have hi := hist_inc F mgr s0 full
  have hhd : ∃ c r, hist F mgr s0 full = c :: r ∧ c.t = s0.t := by
    clear * -
    induction full using List.reverseRecOn with
    | nil => exact ⟨s0, [], rfl, rfl⟩
    | append_singleton l x ih =>
      obtain ⟨c, r, e1, e2⟩ := ih
      unfold hist at *
      rw [List.foldl_append, e1]
      simp only [List.foldl_cons, List.foldl_nil]
      unfold istep
      split
      · exact ⟨c, r, rfl, e2⟩
      · rename_i b hb
        split_ifs
        · exact ⟨c, _, rfl, e2⟩
        · cases r with
          | nil =>
            simp only [List.getLast?_singleton, Option.some.injEq] at hb
            subst hb
            exact ⟨app F mgr x c, [], rfl, by rw [app_t, e2]⟩
          | cons y r => exact ⟨c, _, rfl, e2⟩
  obtain ⟨c, r, e1, e2⟩ := hhd
  intro f hfin
  rw [e1] at hi hfin
  rw [List.mem_cons] at hfin
  rcases hfin with rfl | hfin
  · omega
  · have := (List.pairwise_cons.1 hi).1 f hfin
    omega

theorem insertAndRoll_faithful {F : Filter σ υ ζ} {P : Int → Prop} (hP : Sep P) {s0 : Snap σ υ} {e e' : Estimator σ υ ζ}
    {full : List (Meas υ ζ)} (hf : Faithful F P s0 e full) {m : Meas υ ζ} (hm : P m.t)
    (hs : Served e.cache e.mgr m) (hk : knownSats e.cache m.z = true)
    (hfr : ∃ s ∈ e.st, s.t ≤ m.t) (hfa : ∀ f, e.st.head? = some f → f.t ≤ m.t)
    (htie : ∀ x ∈ full, x.t = m.t → x.z.index ≤ m.z.index)
    (h : insertAndRoll F e m = .ok e') (hh : Healthy P e') (hmgr : e'.mgr = e.mgr) :
    ∃ A B, full = A ++ B ∧ (∀ a ∈ A, a.t ≤ m.t) ∧ (∀ b ∈ B, m.t < b.t) ∧ Faithful F P s0 e' (A ++ m :: B) := by
  obtain ⟨D, hD, hDs⟩ := hf.split
  have hms := hf.healthy.inv.sorted
  have hinc := hf.healthy.inv.inc
  obtain ⟨f, hfh⟩ : ∃ f, e.st.head? = some f := by
    cases h : e.st.head? with
    | none => rw [List.head?_eq_none_iff] at h; exact absurd h hf.healthy.inv.ne
    | some f => exact ⟨f, rfl⟩
  have hft := hfa f hfh
  have hfm : f ∈ e.st := List.mem_of_head? hfh
  -- the two parts of the sorted list
  have hA : ∀ a ∈ D ++ e.ms.takeWhile (fun x => !m.lt x), a.t ≤ m.t := by
    intro a ha
    rw [List.mem_append] at ha
    rcases ha with ha | ha
    · exact le_trans (hDs a ha f hfm) hft
    · have := List.mem_takeWhile_imp ha
      simp only [Bool.not_eq_true', Meas.lt] at this
      rw [Bool.eq_false_iff, ne_eq, keyLt_iff] at this
      omega
  have hB : ∀ b ∈ e.ms.dropWhile (fun x => !m.lt x), m.t < b.t := by
    intro b hb
    have hins := insert_sorted hms m
    have h1 := (List.pairwise_cons.1 (List.pairwise_append.1 hins).2.1).1 b hb
    have h2 : m.t ≤ b.t := by
      unfold Meas.lt at h1
      rw [Bool.eq_false_iff, ne_eq, keyLt_iff] at h1
      omega
    rcases lt_or_eq_of_le h2 with h3 | h3
    · exact h3
    · exfalso
      -- ties were already inserted before
      have h4 := htie b (by rw [hD]; exact List.mem_append_right _ ((List.dropWhile_sublist _).subset hb)) h3.symm
      cases hd : e.ms.dropWhile (fun x => !m.lt x) with
      | nil => rw [hd] at hb; simp at hb
      | cons c r =>
        have hc := List.head?_dropWhile_not (fun x => !m.lt x) e.ms
        rw [hd] at hc hb
        have hc' : m.lt c = true := by simpa using hc
        have hcs : MSorted (c :: r) := hd ▸ hms.sublist (List.dropWhile_sublist _)
        have hcm : c ∈ e.ms := (List.dropWhile_sublist _).subset (by rw [hd]; simp)
        unfold Meas.lt at hc'
        rw [keyLt_iff] at hc'
        have hcb : c.t ≤ b.t := by
          rw [List.mem_cons] at hb
          rcases hb with rfl | hb
          · exact le_refl _
          · have := (List.pairwise_cons.1 (sorted_time hcs)).1 b hb
            exact this
        have h5 := htie c (by rw [hD]; exact List.mem_append_right _ hcm)
        omega
  have hfull : full = (D ++ e.ms.takeWhile (fun x => !m.lt x)) ++ e.ms.dropWhile (fun x => !m.lt x) := by
    rw [List.append_assoc, List.takeWhile_append_dropWhile]; exact hD
  refine ⟨_, _, hfull, hA, hB, ?_⟩
  -- unfold the call
  have h0 := h
  unfold insertAndRoll at h
  obtain ⟨st1, h1, h2⟩ := bind_ok h
  obtain ⟨st2, h3, h4⟩ := bind_ok h2
  obtain ⟨st1', p, r1, r2, r3, r4, r5⟩ := rewind_ok (st := e.st) (insert_sorted hms m) m (by simp) hinc hfr
  have hst1 : st1' = st1 := by rw [r1] at h1; exact Res.ok.inj h1
  rw [← hst1] at h3
  -- the rewound buffer ends the history of the earlier measurements
  have hsuf1 : st1' <:+ hist F e.mgr s0 (D ++ e.ms.takeWhile (fun x => !m.lt x)) := by
    obtain ⟨X, hX⟩ := hf.suf
    have h0t : s0.t ≤ m.t :=
      le_trans (hist_ge F e.mgr s0 full f (by rw [← hX]; simp [hfm])) hft
    have hle : ∀ s ∈ hist F e.mgr s0 (D ++ e.ms.takeWhile (fun x => !m.lt x)), s.t ≤ m.t := by
      intro s hsm
      rcases hist_times _ _ _ _ s hsm with h | ⟨x, h5, h6⟩
      · omega
      · have := hA x h5; omega
    have hne : hist F e.mgr s0 (D ++ e.ms.takeWhile (fun x => !m.lt x)) ≠ [] := foldl_istep_ne (by simp)
    obtain ⟨C, c1, c2⟩ := hist_split F e.mgr (e.ms.dropWhile (fun x => !m.lt x)) _ [] hne hle (by simp) hB
    rw [List.append_nil] at c1
    have hfold : hist F e.mgr s0 full = hist F e.mgr s0 (D ++ e.ms.takeWhile (fun x => !m.lt x)) ++ C := by
      rw [← c1]
      conv_lhs => rw [hfull]
      unfold hist
      rw [List.foldl_append]
    refine ⟨X, suffix_cut (d := m.t) (Y := p) (C := C) (by rw [← r2, ← hfold]; exact hX) ?_ r5 hle c2⟩
    intro s hsm
    rw [List.mem_append] at hsm
    rcases hsm with hsm | hsm
    · have hi := hist_inc F e.mgr s0 full
      rw [← hX] at hi
      obtain ⟨b, hb⟩ := exists_last r3
      have hbm : b ∈ st1' := List.mem_of_getLast? hb
      have := (List.pairwise_append.1 hi).2.2 s hsm b (by rw [r2]; simp [hbm])
      have := r4 b hbm
      omega
    · exact r4 s hsm
  obtain ⟨st2', c1, c2, c3, c4, c5⟩ := roll_suffix (F := F) (cache := e.cache) (mgr := e.mgr) hP
    (l := m :: e.ms.dropWhile (fun x => !m.lt x)) hsuf1 r3
    (fun s h => hf.healthy.times s (by rw [r2]; simp [h])) (by
      intro x hx
      rw [List.mem_cons] at hx
      rcases hx with rfl | hx
      · exact ⟨hm, hs, hk⟩
      · exact hf.healthy.meas x ((List.dropWhile_sublist _).subset hx))
  have hst2 : st2' = st2 := by rw [c1] at h3; exact Res.ok.inj h3
  rw [← hst2] at h4
  unfold dropOldMeasurements at h4
  dsimp only at h4
  split at h4
  · cases h4
  rename_i l hl
  obtain ⟨st3, h5, h6⟩ := bind_ok h4
  cases h6
  obtain ⟨p3, d1, d2, b3, q3, d3, d4⟩ := popFrontWhile_suffix h5
  have hsub3 : ∀ s ∈ st3, s ∈ st2' := fun s h => by rw [d1]; simp [h]
  have hsfull : MSorted ((D ++ e.ms.takeWhile (fun x => !m.lt x)) ++ m :: e.ms.dropWhile (fun x => !m.lt x)) := by
    have hsA := (List.pairwise_append.1 (hfull ▸ hf.sorted : MSorted
      ((D ++ e.ms.takeWhile (fun x => !m.lt x)) ++ e.ms.dropWhile (fun x => !m.lt x))))
    refine List.pairwise_append.2 ⟨hsA.1, List.pairwise_cons.2 ⟨?_, hsA.2.1⟩, ?_⟩
    · intro b hb
      have := hB b hb
      unfold Meas.lt
      rw [Bool.eq_false_iff, ne_eq, keyLt_iff]
      omega
    · intro a ha b hb
      rw [List.mem_cons] at hb
      rcases hb with rfl | hb
      · have h7 := hA a ha
        have h8 := htie a (by rw [hfull]; exact List.mem_append_left _ ha)
        unfold Meas.lt
        rw [Bool.eq_false_iff, ne_eq, keyLt_iff]
        omega
      · exact hsA.2.2 a ha b hb
  have htimes : ∀ x ∈ (D ++ e.ms.takeWhile (fun x => !m.lt x)) ++ m :: e.ms.dropWhile (fun x => !m.lt x), P x.t := by
    intro x hx
    rw [List.mem_append, List.mem_cons] at hx
    rcases hx with hx | rfl | hx
    · exact hf.times x (by rw [hfull]; exact List.mem_append_left _ hx)
    · exact hm
    · exact hf.times x (by rw [hfull]; exact List.mem_append_right _ hx)
  refine ⟨hh, ⟨D ++ (e.ms.takeWhile (fun x => !m.lt x) ++ m :: e.ms.dropWhile (fun x => !m.lt x)).takeWhile
      (fun m => keyLt m.t m.z.index (l.t - MAX_DELAY) 0), ?_, ?_⟩, hsfull, ?_, hf.start, htimes⟩
  · dsimp only
    rw [List.append_assoc, List.append_assoc, List.takeWhile_append_dropWhile]
  · intro d hd s hsm
    dsimp only at hsm
    rw [List.mem_append] at hd
    rcases hd with hd | hd
    · exact c5 d.t (fun y hy => hDs d hd y (by rw [r2]; simp [hy])) s (hsub3 s hsm)
    · have h7 := List.mem_takeWhile_imp hd
      rw [keyLt_zero] at h7
      have hdm : d ∈ e.ms.takeWhile (fun x => !m.lt x) ++ m :: e.ms.dropWhile (fun x => !m.lt x) :=
        (List.takeWhile_sublist _).subset hd
      have hdP : P d.t := by
        refine htimes d ?_
        rw [List.append_assoc]
        exact List.mem_append_right _ hdm
      have hst : l.t - MAX_DELAY - s.t ≤ HALF := by
        have hi3 : Inc st3 := hh.inv.inc
        rw [d3] at hi3 hsm
        rw [List.mem_cons] at hsm
        rcases hsm with rfl | hsm
        · exact d4
        · have := (List.pairwise_cons.1 hi3).1 s hsm
          omega
      by_contra hc
      have := hP s.t d.t (c4 s (hsub3 s hsm)) hdP (by omega)
      omega
  · dsimp only
    refine List.IsSuffix.trans (⟨p3, d1.symm⟩ : st3 <:+ st2') ?_
    refine List.IsSuffix.trans c2 ?_
    unfold hist
    simp only [List.foldl_append]
    exact List.suffix_refl _

/-- One delivery. -/
theorem addMeasurement_faithful {F : Filter σ υ ζ} {P : Int → Prop} (hP : Sep P) {s0 : Snap σ υ} {e : Estimator σ υ ζ}
    {full : List (Meas υ ζ)} (hf : Faithful F P s0 e full) {m : Meas υ ζ} (hm : P m.t)
    (hs : Served e.cache e.mgr m) (htie : ∀ x ∈ full, x.t = m.t → x.z.index ≤ m.z.index) :
    ∃ r e', addMeasurement F e m = .ok (r, e') ∧ e'.cache = e.cache ∧ e'.mgr = e.mgr ∧
      (r ≠ .none → e' = e) ∧
      ((∀ s ∈ e.st, s.t ≤ m.t) → knownSats e.cache m.z = true → r = .none) ∧
      (r = .none → s0.t ≤ m.t ∧ knownSats e.cache m.z = true ∧
        ∃ A B, full = A ++ B ∧ (∀ a ∈ A, a.t ≤ m.t) ∧ (∀ b ∈ B, m.t < b.t) ∧
        Faithful F P s0 e' (A ++ m :: B)) := by
  obtain ⟨r, e', h, hh, hc, hmg⟩ := addMeasurement_healthy (F := F) hP hf.healthy hm hs
  refine ⟨r, e', h, hc, hmg, ?_⟩
  obtain ⟨f, hfh⟩ : ∃ f, e.st.head? = some f := by
    cases h : e.st.head? with
    | none => rw [List.head?_eq_none_iff] at h; exact absurd h hf.healthy.inv.ne
    | some f => exact ⟨f, rfl⟩
  unfold addMeasurement at h
  rw [hfh] at h
  dsimp only at h
  split_ifs at h with h1 h2
  · cases h
    refine ⟨fun _ => rfl, fun hx _ => ?_, fun hx => by cases hx⟩
    have := hx f (List.mem_of_head? hfh)
    simp only [HALF] at h1
    omega
  · cases h
    refine ⟨fun _ => rfl, fun _ hx => ?_, fun hx => by cases hx⟩
    rw [hx] at h2; cases h2
  · obtain ⟨x, h3, h4⟩ := bind_ok h
    cases h4
    refine ⟨fun hx => absurd rfl hx, fun _ _ => rfl, fun _ => ?_⟩
    have hft : f.t ≤ m.t := by
      by_contra hc
      have := hP m.t f.t hm (hf.healthy.times f (List.mem_of_head? hfh)) (by omega)
      omega
    refine ⟨?_, by simpa using h2, ?_⟩
    · obtain ⟨X, hX⟩ := hf.suf
      exact le_trans (hist_ge F e.mgr s0 full f (by rw [← hX]; simp [List.mem_of_head? hfh])) hft
    refine insertAndRoll_faithful hP hf hm hs (by simpa using h2) ⟨f, List.mem_of_head? hfh, hft⟩ ?_ htie h3 hh hmg
    intro f' hf'
    rw [hfh] at hf'
    cases hf'
    exact hft

/-- Every measurement accepted later must not sort before one with the same time accepted earlier. -/
def TiesInOrder (l : List (Meas υ ζ)) : Prop := l.Pairwise fun a b => a.t = b.t → a.z.index ≤ b.z.index

/-- Sorted by time, equal times in arrival order. -/
def InOrderOf (srt acc : List (Meas υ ζ)) : Prop :=
  srt.Pairwise (fun a b => a.t ≤ b.t) ∧ ∀ τ, srt.filter (fun m => m.t = τ) = acc.filter (fun m => m.t = τ)

theorem inOrderOf_unique {a b acc : List (Meas υ ζ)} (ha : InOrderOf a acc) (hb : InOrderOf b acc) : a = b := by
  have key : ∀ (a b : List (Meas υ ζ)), a.Pairwise (fun a b => a.t ≤ b.t) → b.Pairwise (fun a b => a.t ≤ b.t) →
      (∀ τ, a.filter (fun m => m.t = τ) = b.filter (fun m => m.t = τ)) → a = b := by
    intro a
    induction a with
    | nil =>
      intro b _ _ h
      cases b with
      | nil => rfl
      | cons y b => have := h y.t; simp at this
    | cons x a ih =>
      intro b h1 h2 h
      cases b with
      | nil => have := h x.t; simp at this
      | cons y b =>
        have hmem : ∀ (l l' : List (Meas υ ζ)), (∀ τ, l.filter (fun m => m.t = τ) = l'.filter (fun m => m.t = τ)) →
            ∀ z ∈ l, z ∈ l' := by
          intro l l' h z hz
          have : z ∈ l.filter (fun m => m.t = z.t) := by simp [hz]
          rw [h z.t] at this
          exact (List.mem_filter.1 this).1
        have e1 : x.t = y.t := by
          have hx := hmem _ _ h x (by simp)
          have hy := hmem _ _ (fun τ => (h τ).symm) y (by simp)
          rw [List.mem_cons] at hx hy
          have hxy : y.t ≤ x.t := by
            rcases hx with rfl | hx
            · exact le_refl _
            · exact (List.pairwise_cons.1 h2).1 x hx
          have hyx : x.t ≤ y.t := by
            rcases hy with rfl | hy
            · exact le_refl _
            · exact (List.pairwise_cons.1 h1).1 y hy
          omega
        have e2 : x = y := by
          have := h x.t
          simp [e1] at this
          exact this.1
        subst e2
        refine congrArg _ (ih b (List.pairwise_cons.1 h1).2 (List.pairwise_cons.1 h2).2 ?_)
        intro τ
        have := h τ
        by_cases hc : x.t = τ
        · simpa [hc] using this
        · simpa [hc] using this
  exact key a b ha.1 hb.1 (fun τ => by rw [ha.2 τ, hb.2 τ])

theorem inOrderOf_insert {A B acc : List (Meas υ ζ)} {m : Meas υ ζ} (h : InOrderOf (A ++ B) acc)
    (hA : ∀ a ∈ A, a.t ≤ m.t) (hB : ∀ b ∈ B, m.t < b.t) : InOrderOf (A ++ m :: B) (acc ++ [m]) := by
  obtain ⟨h1, h2⟩ := h
  have h3 := List.pairwise_append.1 h1
  refine ⟨List.pairwise_append.2 ⟨h3.1, List.pairwise_cons.2 ⟨fun b hb => le_of_lt (hB b hb), h3.2.1⟩, ?_⟩, ?_⟩
  · intro a ha b hb
    rw [List.mem_cons] at hb
    rcases hb with rfl | hb
    · exact hA a ha
    · exact h3.2.2 a ha b hb
  · intro τ
    rw [List.filter_append (l₁ := acc), ← h2 τ, List.filter_append, List.filter_append, List.filter_cons]
    by_cases hc : m.t = τ
    · have : B.filter (fun m => decide (m.t = τ)) = [] := by
        rw [List.filter_eq_nil_iff]
        intro b hb
        have := hB b hb
        simp only [decide_eq_true_eq]
        omega
      simp [hc, this]
    · simp [hc]

/-- A whole history of deliveries. -/
theorem deliver_faithful {F : Filter σ υ ζ} {P : Int → Prop} (hP : Sep P) {s0 : Snap σ υ} :
    ∀ (arr : List (Meas υ ζ)) (e : Estimator σ υ ζ) (full acc0 : List (Meas υ ζ)),
      Faithful F P s0 e full → InOrderOf full acc0 →
      (∀ m ∈ arr, P m.t ∧ Served e.cache e.mgr m) → TiesInOrder arr →
      (∀ x ∈ full, ∀ m ∈ arr, x.t = m.t → x.z.index ≤ m.z.index) →
      ∃ acc e' full', deliver F e arr = .ok (acc, e') ∧ e'.mgr = e.mgr ∧ Faithful F P s0 e' full' ∧
        InOrderOf full' (acc0 ++ acc) ∧ acc.Sublist arr ∧ (∀ m ∈ acc, s0.t ≤ m.t ∧ knownSats e.cache m.z = true) ∧
        ((∀ m ∈ arr, s0.t ≤ m.t ∧ knownSats e.cache m.z = true) → arr.Pairwise (fun a b => a.t ≤ b.t) →
          (∀ x ∈ full, ∀ m ∈ arr, x.t ≤ m.t) → acc = arr) := by
  intro arr
  induction arr with
  | nil => intro e full acc0 hf hio _ _ _; exact ⟨[], e, full, rfl, rfl, hf, by simpa using hio, by simp, by simp, fun _ _ _ => rfl⟩
  | cons m arr ih =>
    intro e full acc0 hf hio hm ht hx
    obtain ⟨r, e1, a1, a2, a3, a4, a6, a5⟩ := addMeasurement_faithful hP hf (hm m (by simp)).1 (hm m (by simp)).2
      (fun x hxx => hx x hxx m (by simp))
    have htl := List.pairwise_cons.1 ht
    by_cases hr : r = .none
    · obtain ⟨g1, g2, A, B, b1, b2, b3, b4⟩ := a5 hr
      obtain ⟨acc, e', full', c1, c2, c3, c4, c5, c6, c7⟩ := ih e1 (A ++ m :: B) (acc0 ++ [m]) b4
        (inOrderOf_insert (b1 ▸ hio) b2 b3) (fun x hxx => by rw [a2, a3]; exact hm x (by simp [hxx])) htl.2 (by
          intro x hxx y hy
          rw [List.mem_append, List.mem_cons] at hxx
          rcases hxx with hxx | rfl | hxx
          · exact hx x (by rw [b1]; exact List.mem_append_left _ hxx) y (by simp [hy])
          · exact htl.1 y hy
          · exact hx x (by rw [b1]; exact List.mem_append_right _ hxx) y (by simp [hy]))
      refine ⟨m :: acc, e', full', ?_, by rw [c2, a3], c3, by simpa using c4, by simpa using c5, ?_, ?_⟩
      rotate_left
      · intro x hxx
        rw [List.mem_cons] at hxx
        rcases hxx with rfl | hxx
        · exact ⟨g1, g2⟩
        · have := c6 x hxx
          rwa [a2] at this
      · intro k1 k2 k3
        have k4 := List.pairwise_cons.1 k2
        refine congrArg _ (c7 (fun y hy => by rw [a2]; exact k1 y (by simp [hy])) k4.2 ?_)
        intro x hxx y hy
        rw [List.mem_append, List.mem_cons] at hxx
        rcases hxx with hxx | rfl | hxx
        · exact k3 x (by rw [b1]; exact List.mem_append_left _ hxx) y (by simp [hy])
        · exact k4.1 y hy
        · exact k3 x (by rw [b1]; exact List.mem_append_right _ hxx) y (by simp [hy])
      rw [deliver, a1]
      simp only [Res.bind]
      rw [c1]
      simp [hr]
    · have he := a4 hr
      subst he
      obtain ⟨acc, e', full', c1, c2, c3, c4, c5, c6, c7⟩ := ih e1 full acc0 hf hio
        (fun x hxx => hm x (by simp [hxx])) htl.2 (fun x hxx y hy => hx x hxx y (by simp [hy]))
      refine ⟨acc, e', full', ?_, c2, c3, c4, c5.trans (List.sublist_cons_self _ _), c6, ?_⟩
      rotate_left
      · intro k1 k2 k3
        refine absurd (a6 ?_ (k1 m (by simp)).2) hr
        intro s hsm
        obtain ⟨X, hX⟩ := hf.suf
        rcases hist_times F e1.mgr s0 full s (by rw [← hX]; simp [hsm]) with h | ⟨x, h5, h6⟩
        · have := (k1 m (by simp)).1
          omega
        · have := k3 x h5 m (by simp)
          omega
      rw [deliver, a1]
      simp only [Res.bind]
      rw [c1]
      simp [hr]

end Verif.Est
