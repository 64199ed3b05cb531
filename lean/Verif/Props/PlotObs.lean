import Verif.Props.Plot
import Mathlib.Data.List.Nodup
import Mathlib.Data.List.ReduceOption

/-!
# C143: plots of observations show each observation
-/

namespace Verif.Props.Plot

open Verif.Log Verif.Log.Spec Verif.Model.Plot Verif.Spec.Plot Verif.Props.LogFormat

theorem mem_unique {α : Type} [DecidableEq α] (le : α → α → Bool) (l : List α) (a : α) : a ∈ unique le l ↔ a ∈ l := by
  simp [unique]

theorem nodup_unique {α : Type} [DecidableEq α] (le : α → α → Bool) (l : List α) : (unique le l).Nodup :=
  (List.mergeSort_perm _ _).nodup_iff.2 (List.nodup_dedup l)

theorem length_unique {α : Type} [DecidableEq α] (le : α → α → Bool) (l : List α) : (unique le l).length = l.dedup.length := by
  simp [unique]

/-- The pairs of frequency and satellite of a constellation. -/
def pairs {V : Type} (obs : List (Obs V)) (g : ℕ) : List (ℚ × ℕ) :=
  (obs.filter fun x => decide (x.gnss = g)).map fun x => (x.freq, x.sat)

theorem mem_pairs {V : Type} (obs : List (Obs V)) (g : ℕ) (p : ℚ × ℕ) :
    p ∈ pairs obs g ↔ ∃ o ∈ obs, o.gnss = g ∧ o.freq = p.1 ∧ o.sat = p.2 := by
  simp only [pairs, List.mem_map, List.mem_filter, decide_eq_true_eq]
  constructor
  · rintro ⟨o, ⟨h1, h2⟩, rfl⟩
    exact ⟨o, h1, h2, rfl, rfl⟩
  · rintro ⟨o, h1, h2, h3, h4⟩
    exact ⟨o, ⟨h1, h2⟩, Prod.ext h3 h4⟩

/-- The row of a pair. -/
def rowOf {V : Type} (obs : List (Obs V)) (g : ℕ) (name : String) (i : ℕ) (p : ℚ × ℕ) : Drawn V :=
  ⟨i, name, p.2, decide (i = 0), fun j => series obs g p.2 p.1 j⟩

theorem drawRow_eq {V : Type} (obs : List (Obs V)) (g n i : ℕ) (p : ℚ × ℕ) (hn : n ≠ 1) (name : String)
    (hg : p.1 ≠ 0 → gnssName g = some name) :
    drawRow g n (obs.filter fun x => decide (x.gnss = g)) i p = some (if p.1 = 0 then none else some (rowOf obs g name i p)) := by
  unfold drawRow
  by_cases h0 : p.1 = 0
  · simp [h0]
  · rw [if_neg h0, if_neg hn, hg h0, Option.map_some, if_neg h0]
    simp only [rowOf, series, List.filter_filter]
    congr 3
    funext j
    congr 2
    funext x
    simp only [Bool.decide_and]
    cases decide (x.gnss = g) <;> cases decide (x.sat = p.2) <;> cases decide (x.freq = p.1) <;> rfl

/-- The rows of a constellation. -/
def rowsOf {V : Type} (obs : List (Obs V)) (g : ℕ) (name : String) : List (Drawn V) :=
  ((unique pairLe (pairs obs g)).zipIdx.map fun e => if e.1.1 = 0 then none else some (rowOf obs g name e.2 e.1)).reduceOption

theorem drawSystem_eq {V : Type} (obs : List (Obs V)) (g : ℕ) (hn : (pairs obs g).dedup.length ≠ 1) (name : String)
    (hg : (∃ o ∈ obs, o.gnss = g ∧ o.freq ≠ 0) → gnssName g = some name) :
    drawSystem obs g = some (if (rowsOf obs g name).isEmpty then none else some (name, rowsOf obs g name)) := by
  have hgp : ∀ p ∈ unique pairLe (pairs obs g), p.1 ≠ 0 → gnssName g = some name := by
    intro p hp h0
    obtain ⟨o, h1, h2, h3, h4⟩ := (mem_pairs obs g p).1 ((mem_unique _ _ _).1 hp)
    exact hg ⟨o, h1, h2, h3 ▸ h0⟩
  have h : (unique pairLe (pairs obs g)).zipIdx.mapM (fun e => drawRow g (unique pairLe (pairs obs g)).length
      (obs.filter fun x => decide (x.gnss = g)) e.2 e.1) =
      some ((unique pairLe (pairs obs g)).zipIdx.map fun e => if e.1.1 = 0 then none else some (rowOf obs g name e.2 e.1)) := by
    refine mapM_some' _ _ _ fun e he => ?_
    exact drawRow_eq obs g _ e.2 e.1 (by rw [length_unique]; exact hn) name
      (hgp e.1 (List.fst_mem_of_mem_zipIdx he))
  show (((unique pairLe (pairs obs g)).zipIdx.mapM fun e => drawRow g (unique pairLe (pairs obs g)).length
      (obs.filter fun x => decide (x.gnss = g)) e.2 e.1).bind _) = _
  rw [h, Option.bind_some]
  show (if (rowsOf obs g name).isEmpty then some none else (gnssName g).map fun n => some (n, rowsOf obs g name)) = _
  by_cases he : (rowsOf obs g name).isEmpty
  · rw [if_pos he, if_pos he]
  · rw [if_neg he, if_neg he]
    have : ∃ d, d ∈ rowsOf obs g name := by
      rw [List.isEmpty_iff] at he
      exact List.exists_mem_of_ne_nil _ he
    obtain ⟨d, hd⟩ := this
    rw [rowsOf, List.reduceOption_mem_iff, List.mem_map] at hd
    obtain ⟨e, he1, he2⟩ := hd
    have h0 : e.1.1 ≠ 0 := by
      intro h0
      simp [h0] at he2
    rw [hgp e.1 (List.fst_mem_of_mem_zipIdx he1) h0]
    rfl

theorem mem_rowsOf {V : Type} (obs : List (Obs V)) (g : ℕ) (name : String) (d : Drawn V) :
    d ∈ rowsOf obs g name ↔ ∃ i p, (p, i) ∈ (unique pairLe (pairs obs g)).zipIdx ∧ p.1 ≠ 0 ∧ d = rowOf obs g name i p := by
  rw [rowsOf, List.reduceOption_mem_iff, List.mem_map]
  constructor
  · rintro ⟨e, h1, h2⟩
    by_cases h0 : e.1.1 = 0
    · simp [h0] at h2
    · rw [if_neg h0] at h2
      exact ⟨e.2, e.1, h1, h0, (Option.some.inj h2).symm⟩
  · rintro ⟨i, p, h1, h0, rfl⟩
    exact ⟨(p, i), h1, by simp [h0]⟩

theorem exists_zipIdx {α : Type} {l : List α} {a : α} (h : a ∈ l) : ∃ i, (a, i) ∈ l.zipIdx := by
  obtain ⟨i, hi⟩ := List.mem_iff_getElem?.1 h
  exact ⟨i, List.mk_mem_zipIdx_iff_getElem?.2 hi⟩

theorem reduce_filter {α β : Type} (c : α → Prop) [DecidablePred c] (f : α → β) (l : List α) :
    (l.map fun e => if c e then none else some (f e)).reduceOption = (l.filter fun e => decide (¬ c e)).map f := by
  induction l with
  | nil => rfl
  | cons a l ih =>
    by_cases h : c a
    · simp [h, ih]
    · simp [h, ih]

/-- The name of a constellation; `""` if it has none. -/
def nameOf (g : ℕ) : String := (gnssName g).getD ""

theorem gnssName_inj {a b : ℕ} {n : String} (ha : gnssName a = some n) (hb : gnssName b = some n) : a = b := by
  have key : ∀ g n, gnssName g = some n → (g = 0 ∧ n = "GPS") ∨ (g = 1 ∧ n = "SBAS") ∨ (g = 2 ∧ n = "GAL") ∨ (g = 3 ∧ n = "COM") ∨
      (g = 5 ∧ n = "QZSS") ∨ (g = 6 ∧ n = "GLO") := by
    intro g n h
    unfold gnssName at h
    split at h <;> simp_all
  rcases key a n ha with h | h | h | h | h | h <;> rcases key b n hb with h' | h' | h' | h' | h' | h' <;>
    first
    | exact h.1.trans h'.1.symm
    | (exfalso; have := h.2.symm.trans h'.2; revert this; decide)

/-- When the constellations are known and each has at least two satellites or frequencies, there is a tab for each constellation, in it
a row for each satellite and frequency, and the row shows all its observations over their times; nothing else is shown.  Observations
without frequency are left out on purpose. -/
theorem C143_rows_partial {V : Type} (obs : List (Obs V)) (hk : ∀ o ∈ obs, o.freq ≠ 0 → gnssName o.gnss ≠ none)
    (hn : ∀ g, (pairs obs g).dedup.length ≠ 1) :
    ∃ tabs, plotObs obs = some tabs ∧ (tabs.map Prod.fst).Nodup ∧
      (∀ o ∈ obs, o.freq ≠ 0 → ∃ name rows, gnssName o.gnss = some name ∧ (name, rows) ∈ tabs ∧
        ∃ d ∈ rows, d.sat = o.sat ∧ d.label = name ∧ ∀ j, d.lines j = series obs o.gnss o.sat o.freq j) ∧
      (∀ tab ∈ tabs, (tab.2.map Drawn.place).Nodup ∧ ∀ d ∈ tab.2, d.label = tab.1 ∧ (d.titles = true ↔ d.place = 0) ∧
        ∃ o ∈ obs, o.freq ≠ 0 ∧ gnssName o.gnss = some tab.1 ∧ d.sat = o.sat ∧
          ∀ j, d.lines j = series obs o.gnss o.sat o.freq j) ∧
      ∀ tab ∈ tabs, ∃ g, gnssName g = some tab.1 ∧
        tab.2.length = ((pairs obs g).filter fun p => decide (p.1 ≠ 0)).dedup.length := by
  have hname : ∀ g, (∃ o ∈ obs, o.gnss = g ∧ o.freq ≠ 0) → gnssName g = some (nameOf g) := by
    rintro g ⟨o, h1, rfl, h2⟩
    obtain ⟨n, hn⟩ := Option.ne_none_iff_exists'.1 (hk o h1 h2)
    rw [nameOf, hn]; rfl
  have hsys : ∀ g ∈ unique (fun a b => decide (a ≤ b)) (obs.map Obs.gnss), drawSystem obs g =
      some (if (rowsOf obs g (nameOf g)).isEmpty then none else some (nameOf g, rowsOf obs g (nameOf g))) :=
    fun g _ => drawSystem_eq obs g (hn g) _ (hname g)
  refine ⟨_, by rw [plotObs, mapM_some' _ _ _ hsys, Option.map_some], ?_, ?_, ?_, ?_⟩
  all_goals
    have hmem : ∀ tab, tab ∈ ((unique (fun a b => decide (a ≤ b)) (obs.map Obs.gnss)).map fun g =>
        if (rowsOf obs g (nameOf g)).isEmpty then none else some (nameOf g, rowsOf obs g (nameOf g))).reduceOption ↔
        ∃ g, (∃ o ∈ obs, o.gnss = g ∧ o.freq ≠ 0) ∧ tab = (nameOf g, rowsOf obs g (nameOf g)) := by
      intro tab
      rw [List.reduceOption_mem_iff, List.mem_map]
      constructor
      · rintro ⟨g, h1, h2⟩
        by_cases he : (rowsOf obs g (nameOf g)).isEmpty
        · simp [he] at h2
        · rw [if_neg he] at h2
          refine ⟨g, ?_, (Option.some.inj h2).symm⟩
          rw [List.isEmpty_iff] at he
          obtain ⟨d, hd⟩ := List.exists_mem_of_ne_nil _ he
          obtain ⟨i, p, hp, h0, -⟩ := (mem_rowsOf _ _ _ _).1 hd
          obtain ⟨o, o1, o2, o3, o4⟩ := (mem_pairs obs g p).1 ((mem_unique _ _ _).1 (List.fst_mem_of_mem_zipIdx hp))
          exact ⟨o, o1, o2, o3 ▸ h0⟩
      · rintro ⟨g, ⟨o, o1, rfl, o3⟩, rfl⟩
        refine ⟨o.gnss, (mem_unique _ _ _).2 (List.mem_map.2 ⟨o, o1, rfl⟩), ?_⟩
        rw [if_neg]
        rw [List.isEmpty_iff]
        have hp : (o.freq, o.sat) ∈ unique pairLe (pairs obs o.gnss) :=
          (mem_unique _ _ _).2 ((mem_pairs _ _ _).2 ⟨o, o1, rfl, rfl, rfl⟩)
        obtain ⟨i, hi⟩ := exists_zipIdx hp
        exact List.ne_nil_of_mem ((mem_rowsOf _ _ _ _).2 ⟨i, _, hi, o3, rfl⟩)
  · rw [reduce_filter (fun g => (rowsOf obs g (nameOf g)).isEmpty = true), List.map_map]
    refine List.Nodup.map_on ?_ ((nodup_unique _ _).filter _)
    have hh : ∀ g ∈ (unique (fun a b => decide (a ≤ b)) (obs.map Obs.gnss)).filter
        (fun g => decide (¬ (rowsOf obs g (nameOf g)).isEmpty = true)), gnssName g = some (nameOf g) := by
      intro g hg
      rw [List.mem_filter, decide_eq_true_eq] at hg
      have := (hmem (nameOf g, rowsOf obs g (nameOf g))).1 (by
        rw [List.reduceOption_mem_iff, List.mem_map]
        exact ⟨g, hg.1, by rw [if_neg hg.2]⟩)
      rw [List.isEmpty_iff] at hg
      obtain ⟨d, hd⟩ := List.exists_mem_of_ne_nil _ hg.2
      obtain ⟨i, p, hp, h0, -⟩ := (mem_rowsOf _ _ _ _).1 hd
      obtain ⟨o, o1, o2, o3, o4⟩ := (mem_pairs obs g p).1 ((mem_unique _ _ _).1 (List.fst_mem_of_mem_zipIdx hp))
      exact hname g ⟨o, o1, o2, o3 ▸ h0⟩
    intro a ha b hb hab
    have h1 := hh a ha
    have h2 := hh b hb
    simp only [Function.comp_apply] at hab
    exact gnssName_inj h1 (hab ▸ h2)
  · intro o ho h0
    refine ⟨nameOf o.gnss, _, hname _ ⟨o, ho, rfl, h0⟩, (hmem _).2 ⟨o.gnss, ⟨o, ho, rfl, h0⟩, rfl⟩, ?_⟩
    have hp : (o.freq, o.sat) ∈ unique pairLe (pairs obs o.gnss) :=
      (mem_unique _ _ _).2 ((mem_pairs _ _ _).2 ⟨o, ho, rfl, rfl, rfl⟩)
    obtain ⟨i, hi⟩ := exists_zipIdx hp
    exact ⟨_, (mem_rowsOf _ _ _ _).2 ⟨i, _, hi, h0, rfl⟩, rfl, rfl, fun _ => rfl⟩
  · intro tab ht
    obtain ⟨g, hg, rfl⟩ := (hmem _).1 ht
    refine ⟨?_, ?_⟩
    · simp only [rowsOf]
      rw [reduce_filter (fun e : (ℚ × ℕ) × ℕ => e.1.1 = 0), List.map_map]
      refine List.Nodup.sublist (List.filter_sublist.map _) ?_
      rw [show (Drawn.place ∘ fun e : (ℚ × ℕ) × ℕ => rowOf obs g (nameOf g) e.2 e.1) = Prod.snd from rfl, List.zipIdx_map_snd]
      exact List.nodup_range'
    · intro d hd
      obtain ⟨i, p, hp, h0, rfl⟩ := (mem_rowsOf _ _ _ _).1 hd
      obtain ⟨o, o1, o2, o3, o4⟩ := (mem_pairs obs g p).1 ((mem_unique _ _ _).1 (List.fst_mem_of_mem_zipIdx hp))
      refine ⟨rfl, by simp [rowOf], o, o1, o3 ▸ h0, ?_, o4.symm, ?_⟩
      · rw [o2]; exact hname g hg
      · intro j
        rw [o2, o3, o4]; rfl
  · intro tab ht
    obtain ⟨g, hg, rfl⟩ := (hmem _).1 ht
    refine ⟨g, hname g hg, ?_⟩
    simp only [rowsOf]
    rw [reduce_filter (fun e : (ℚ × ℕ) × ℕ => e.1.1 = 0), List.length_map]
    have h1 : (((unique pairLe (pairs obs g)).zipIdx.filter fun e => decide (¬ e.1.1 = 0)).map Prod.fst) =
        (unique pairLe (pairs obs g)).filter fun p => decide (¬ p.1 = 0) := by
      rw [← List.zipIdx_map_fst 0 (unique pairLe (pairs obs g)), List.filter_map]
      simp [Function.comp_def]
    have h2 : ((unique pairLe (pairs obs g)).filter fun p => decide (¬ p.1 = 0)).Perm
        ((pairs obs g).filter fun p => decide (p.1 ≠ 0)).dedup := by
      refine (List.perm_ext_iff_of_nodup ((nodup_unique _ _).filter _) (List.nodup_dedup _)).2 fun p => ?_
      simp [mem_unique]
    rw [← h2.length_eq, ← h1, List.length_map]

theorem plot_none {V : Type} (obs : List (Obs V)) (o : Obs V) (ho : o ∈ obs) (h : drawSystem obs o.gnss = none) : plotObs obs = none := by
  rw [plotObs, mapM_none' _ _ o.gnss ((mem_unique _ _ _).2 (List.mem_map.2 ⟨o, ho, rfl⟩)) h]
  rfl

theorem system_none {V : Type} (obs : List (Obs V)) (g i : ℕ) (p : ℚ × ℕ) (h : (p, i) ∈ (unique pairLe (pairs obs g)).zipIdx)
    (hn : drawRow g (unique pairLe (pairs obs g)).length (obs.filter fun x => decide (x.gnss = g)) i p = none) :
    drawSystem obs g = none := by
  show (((unique pairLe (pairs obs g)).zipIdx.mapM fun e => drawRow g (unique pairLe (pairs obs g)).length
      (obs.filter fun x => decide (x.gnss = g)) e.2 e.1).bind _) = _
  rw [mapM_none' _ _ (p, i) h hn]
  rfl

/-- plot_obs.py 19, 23: with one satellite on one frequency of a constellation `plt.subplots` gives no rows, and nothing is shown of any
constellation. -/
theorem C143_single_violated {V : Type} (obs : List (Obs V)) (o : Obs V) (ho : o ∈ obs) (h0 : o.freq ≠ 0)
    (h : ∀ o' ∈ obs, o'.gnss = o.gnss → o'.freq = o.freq ∧ o'.sat = o.sat) : plotObs obs = none := by
  have hp : (o.freq, o.sat) ∈ unique pairLe (pairs obs o.gnss) :=
    (mem_unique _ _ _).2 ((mem_pairs _ _ _).2 ⟨o, ho, rfl, rfl, rfl⟩)
  obtain ⟨i, hi⟩ := exists_zipIdx hp
  have hl : (unique pairLe (pairs obs o.gnss)).length = 1 := by
    have h1 : (unique pairLe (pairs obs o.gnss)).Perm [(o.freq, o.sat)] := by
      refine (List.perm_ext_iff_of_nodup (nodup_unique _ _) (List.nodup_singleton _)).2 fun p => ?_
      rw [mem_unique, mem_pairs, List.mem_singleton]
      constructor
      · rintro ⟨o', h1, h2, h3, h4⟩
        have := h o' h1 h2
        exact Prod.ext (h3.symm.trans this.1) (h4.symm.trans this.2)
      · rintro rfl
        exact ⟨o, ho, rfl, rfl, rfl⟩
    rw [h1.length_eq]; rfl
  exact plot_none obs o ho (system_none obs _ i _ hi (by rw [drawRow, if_neg h0, hl, if_pos rfl]))

/-- plot_obs.py 27: an observation of a constellation that is not in the table (the receiver's number 4, IMES) stops the
script. -/
theorem C143_unknown_violated {V : Type} (obs : List (Obs V)) (o : Obs V) (ho : o ∈ obs) (h0 : o.freq ≠ 0)
    (h : gnssName o.gnss = none) : plotObs obs = none := by
  have hp : (o.freq, o.sat) ∈ unique pairLe (pairs obs o.gnss) :=
    (mem_unique _ _ _).2 ((mem_pairs _ _ _).2 ⟨o, ho, rfl, rfl, rfl⟩)
  obtain ⟨i, hi⟩ := exists_zipIdx hp
  refine plot_none obs o ho (system_none obs _ i _ hi ?_)
  rw [drawRow, if_neg h0, h]
  split <;> rfl

theorem titles_rows {V : Type} (obs : List (Obs V)) (hf : ∀ o ∈ obs, 0 ≤ o.freq) (o : Obs V) (ho : o ∈ obs) (h0 : o.freq = 0)
    (name : String) : ∀ d ∈ rowsOf obs o.gnss name, d.titles = false := by
  intro d hd
  obtain ⟨i, p, hp, hp0, rfl⟩ := (mem_rowsOf _ _ _ _).1 hd
  have hi := List.mk_mem_zipIdx_iff_getElem?.1 hp
  simp only [rowOf, decide_eq_false_iff_not]
  rintro rfl
  have hs : (unique pairLe (pairs obs o.gnss)).Pairwise fun a b => pairLe a b = true := by
    refine List.pairwise_mergeSort ?_ ?_ _
    · intro a b c h1 h2
      simp only [pairLe, Bool.or_eq_true, decide_eq_true_eq, Bool.and_eq_true] at *
      rcases h1 with h1 | ⟨h1, h1'⟩ <;> rcases h2 with h2 | ⟨h2, h2'⟩
      · exact .inl (h1.trans h2)
      · exact .inl (h2 ▸ h1)
      · exact .inl (h1 ▸ h2)
      · exact .inr ⟨h1.trans h2, h1'.trans h2'⟩
    · intro a b
      simp only [pairLe, Bool.or_eq_true, decide_eq_true_eq, Bool.and_eq_true]
      rcases lt_trichotomy a.1 b.1 with h | h | h
      · exact .inl (.inl h)
      · rcases le_total a.2 b.2 with h' | h'
        · exact .inl (.inr ⟨h, h'⟩)
        · exact .inr (.inr ⟨h.symm, h'⟩)
      · exact .inr (.inl h)
  have hm : (o.freq, o.sat) ∈ unique pairLe (pairs obs o.gnss) :=
    (mem_unique _ _ _).2 ((mem_pairs _ _ _).2 ⟨o, ho, rfl, rfl, rfl⟩)
  obtain ⟨o', o1, o2, o3, o4⟩ := (mem_pairs obs o.gnss p).1 ((mem_unique _ _ _).1 (List.fst_mem_of_mem_zipIdx hp))
  have hpos : 0 < p.1 := lt_of_le_of_ne (o3 ▸ hf o' o1) (Ne.symm hp0)
  cases hu : unique pairLe (pairs obs o.gnss) with
  | nil => rw [hu] at hi; simp at hi
  | cons q l =>
    rw [hu] at hi hs hm
    simp only [List.getElem?_cons_zero, Option.some.injEq] at hi
    subst hi
    rcases List.mem_cons.1 hm with h | h
    · exact hp0 (by rw [← h]; exact h0)
    · have := (List.pairwise_cons.1 hs).1 _ h
      simp only [pairLe, Bool.or_eq_true, decide_eq_true_eq, Bool.and_eq_true, h0] at this
      rcases this with h | h
      · exact absurd h (not_lt.2 hpos.le)
      · exact hp0 h.1

/-- plot_obs.py 16, 28: when a constellation has an observation without frequency, no panel of it has a title. -/
theorem C143_titles_violated {V : Type} (obs : List (Obs V)) (hf : ∀ o ∈ obs, 0 ≤ o.freq) (o : Obs V) (ho : o ∈ obs) (h0 : o.freq = 0)
    (hn : ∀ g, (pairs obs g).dedup.length ≠ 1) (hk : gnssName o.gnss ≠ none) (tab : String × List (Drawn V))
    (h : drawSystem obs o.gnss = some (some tab)) : ∀ d ∈ tab.2, d.titles = false := by
  obtain ⟨n, hn'⟩ := Option.ne_none_iff_exists'.1 hk
  rw [drawSystem_eq obs o.gnss (hn _) n fun _ => hn'] at h
  split at h
  · simp at h
  · simp only [Option.some.injEq] at h
    rw [← h]
    exact titles_rows obs hf o ho h0 n

/-- plot_obs.py 8 asks for the column `x`; simulate.cxx 89 and gather_ephemeris.cxx 88 call it `obs`: no log of the project has it. -/
theorem C143_column_violated (τ : Num → Num → Num) (rs : List (Stamp × Row (cols obsStream))) :
    ∃ a, load τ (cols obsStream) (streamFile (cols obsStream) rs) = some a ∧ obsColumn a.d = none ∧
      ∀ rest x, standardPlot a (nm "x" :: rest) x = none := by
  refine ⟨_, load_of_reads τ obsStream C110_streams.2.2.1 _ rfl rfl rs, rfl, fun rest x => ?_⟩
  refine C142_missing _ [] _ (.nil _) "x" ?_ rest x
  intro d h
  have h1 : (none : Option DType) = some d := field_some h
  exact absurd h1 (by simp)

/-! ### Residuals -/

/-- `plot_obs_residual`: with fewer than 30 satellites there are two panels for each, which show the components of its residuals over
their times. -/
theorem C143_residual {V : Type} (obs : List (V × ℕ × (Fin 2 → V))) (h : (obs.map fun o => o.2.1).dedup.length < 30) :
    ∃ (title : Option String) (ids : List ℕ), (∀ s, s ∈ ids ↔ ∃ o ∈ obs, o.2.1 = s) ∧ ids.Pairwise (· < ·) ∧
      plotResidual obs = some (title, ids.flatMap fun s =>
        [(obs.filter fun o => decide (o.2.1 = s)).map fun o => (o.1, o.2.2 0),
         (obs.filter fun o => decide (o.2.1 = s)).map fun o => (o.1, o.2.2 1)]) := by
  refine ⟨if unique (fun a b => decide (a ≤ b)) (obs.map fun o => o.2.1) = [] then none else some "doppler",
    unique (fun a b => decide (a ≤ b)) (obs.map fun o => o.2.1), ?_, ?_, ?_⟩
  · intro s
    rw [mem_unique, List.mem_map]
  · have h1 : (unique (fun a b => decide (a ≤ b)) (obs.map fun o => o.2.1)).Pairwise fun a b => decide (a ≤ b) = true := by
      refine List.pairwise_mergeSort ?_ ?_ _
      · intro a b c h1 h2
        simp only [decide_eq_true_eq] at *
        exact h1.trans h2
      · intro a b
        simpa using le_total a b
    have h2 := nodup_unique (fun a b => decide (a ≤ b)) (obs.map fun o => o.2.1)
    exact (h1.and h2).imp fun ⟨h, h'⟩ => lt_of_le_of_ne (by simpa using h) h'
  · rw [plotResidual, if_pos (by rw [length_unique]; exact h)]

/-- plot_obs.py 40: with 30 satellites the assertion fails. -/
theorem C143_many_violated {V : Type} (obs : List (V × ℕ × (Fin 2 → V))) (h : 30 ≤ (obs.map fun o => o.2.1).dedup.length) :
    plotResidual obs = none := by
  rw [plotResidual, if_neg (by rw [length_unique]; omega)]

/-- plot_obs.py 49, 57: the title of the figure is never that of the pseudoranges. -/
theorem C143_title_violated {V : Type} (obs : List (V × ℕ × (Fin 2 → V))) (t : Option String) (ps) (h : plotResidual obs = some (t, ps)) :
    t ≠ some "prange" := by
  rw [plotResidual] at h
  split at h
  · simp only [Option.some.injEq, Prod.mk.injEq] at h
    rw [← h.1]
    split <;> simp
  · simp at h

/-- The full statement: whatever was observed is shown. -/
def C143_statement : Prop := ∀ obs : List (Obs ℚ), (∀ o ∈ obs, 0 < o.freq) → (plotObs obs).isSome

/-- One satellite of GPS. -/
theorem C143_statement_false : ¬ C143_statement := by
  intro h
  have := h [⟨0, 0, 1575, 3, fun _ => 1⟩] (by simp)
  rw [C143_single_violated _ ⟨0, 0, 1575, 3, fun _ => 1⟩ (by simp) (by norm_num) (by simp)] at this
  simp at this

/-- Two satellites: two rows. -/
example : ∃ tabs, plotObs ([⟨0, 0, 1575, 3, fun _ => 1⟩, ⟨0, 0, 1575, 5, fun _ => 2⟩, ⟨1, 0, 1575, 3, fun _ => 4⟩] : List (Obs ℚ)) =
    some tabs := by
  obtain ⟨tabs, h, -⟩ := C143_rows_partial
    ([⟨0, 0, 1575, 3, fun _ => 1⟩, ⟨0, 0, 1575, 5, fun _ => 2⟩, ⟨1, 0, 1575, 3, fun _ => 4⟩] : List (Obs ℚ))
    (by simp [gnssName]) (by
      intro g
      by_cases hg : g = 0
      · subst hg
        simp [pairs]
      · simp [pairs, Ne.symm hg])
  exact ⟨tabs, h⟩

end Verif.Props.Plot
