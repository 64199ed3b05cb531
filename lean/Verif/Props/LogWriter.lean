import Verif.Spec.LogWriter
import Verif.Lemmas.LogStream
import Mathlib.Data.List.Basic
import Mathlib.Data.List.Nodup
import Mathlib.Data.List.Induction
/-!
# C119: the life of a log on disk
-/
namespace Verif.Props.LogWriter
open Verif.LogWriter Verif.LogWriterSpec Verif.Utc Verif.Log

/-! ### Which calls are allowed -/

theorem inits_snoc (ops : List (Op φ)) (o : Op φ) :
    inits (ops ++ [o]) = inits ops ++ (match o with | .init k f => [(k, f)] | _ => []) := by
  cases o <;> simp [inits]

theorem recs_snoc (j : Int) (ops : List (Op φ)) (o : Op φ) :
    recs j (ops ++ [o]) = recs j ops ++ (match o with | .log k b => if k = j then [b] else [] | _ => []) := by
  cases o <;> simp [recs]
  split <;> simp_all

theorem amended_snoc (ops : List (Op φ)) (o : Op φ) :
    amended (ops ++ [o]) = (match o with | .amends p => some p | _ => amended ops) := by
  cases o <;> simp [amended]

/-- What one more call needs. -/
def Next (ops : List (Op φ)) : Op φ → Prop
  | .init k _ => k ∉ (inits ops).map Prod.fst
  | .log k _ => k ∈ (inits ops).map Prod.fst ∧ (recs k ops).length + 1 < 2 ^ 31
  | .amends _ => True

theorem legal_nil : Legal ([] : List (Op φ)) := by
  refine ⟨by simp [inits], ?_, by simp [recs]⟩
  intro pre post k b h
  simp at h

theorem legal_snoc (ops : List (Op φ)) (o : Op φ) :
    Legal (ops ++ [o]) ↔ Legal ops ∧ Next ops o := by
  constructor
  · rintro ⟨h1, h2, h3⟩
    refine ⟨⟨?_, ?_, ?_⟩, ?_⟩
    · rw [inits_snoc, List.map_append] at h1
      exact (List.nodup_append.1 h1).1
    · intro pre post k b e
      exact h2 pre (post ++ [o]) k b (by rw [e]; simp)
    · intro k
      have := h3 k
      rw [recs_snoc, List.length_append] at this
      omega
    · cases o with
      | init k f =>
        rw [inits_snoc, List.map_append] at h1
        intro hk
        exact (List.nodup_append.1 h1).2.2 k hk k (by simp) rfl
      | log k b =>
        refine ⟨h2 ops [] k b rfl, ?_⟩
        have := h3 k
        rw [recs_snoc] at this
        simpa using this
      | amends p => trivial
  · rintro ⟨⟨h1, h2, h3⟩, hn⟩
    refine ⟨?_, ?_, ?_⟩
    · rw [inits_snoc, List.map_append]
      cases o with
      | init k f =>
        simp only [List.map_cons, List.map_nil]
        rw [List.nodup_append]
        refine ⟨h1, by simp, ?_⟩
        intro a ha b hb e
        simp only [List.mem_singleton] at hb
        subst hb; subst e
        exact hn ha
      | log k b => simpa using h1
      | amends p => simpa using h1
    · intro pre post k b e
      rcases List.eq_nil_or_concat post with rfl | ⟨post', x, rfl⟩
      · have := List.append_inj' e rfl
        rw [← this.1]
        have ho : o = Op.log k b := by simpa using this.2
        subst ho
        exact hn.1
      · rw [List.concat_eq_append, ← List.cons_append, ← List.append_assoc] at e
        have := (List.append_inj' e rfl).1
        exact h2 pre post' k b this
    · intro k
      rw [recs_snoc]
      cases o with
      | log k' b =>
        by_cases e : k' = k
        · subst e; simpa using hn.2
        · simpa [e] using h3 k
      | init k' f => simpa using h3 k
      | amends p => simpa using h3 k

theorem run_snoc (s : FS φ × Logger φ) (ops : List (Op φ)) (o : Op φ) :
    run s (ops ++ [o]) = (run s ops).bind fun s' => step s' o := by
  unfold run
  rw [List.foldlM_append]
  cases List.foldlM step s ops <;> simp

/-- The streams and counters of a logger that starts without streams. -/
theorem run_counts (s : FS φ × Logger φ) (h0 : s.2.streams = fun _ => none) (ops : List (Op φ)) :
    (Legal ops → ∃ r, run s ops = some r) ∧
    ∀ r, run s ops = some r → Legal ops ∧ ∀ k, (r.2.streams k).map Stream.num =
      if k ∈ (inits ops).map Prod.fst then some (recs k ops).length else none := by
  induction ops using List.reverseRecOn with
  | nil =>
    refine ⟨fun _ => ⟨s, rfl⟩, ?_⟩
    intro r hr
    have : s = r := by simpa [run] using hr
    subst this
    exact ⟨legal_nil, fun k => by simp [h0, inits]⟩
  | append_singleton ops o ih =>
    rw [run_snoc, legal_snoc]
    have stepOk : ∀ r, run s ops = some r → (Next ops o ↔ ∃ r', step r o = some r') ∧
        ∀ r', step r o = some r' → ∀ k, (r'.2.streams k).map Stream.num =
          if k ∈ (inits (ops ++ [o])).map Prod.fst then some (recs k (ops ++ [o])).length else none := by
      intro r hr
      have hk := (ih.2 r hr).2
      cases o with
      | init key f =>
        have hkey := hk key
        constructor
        · simp only [Next, step, initStream]
          cases hs : r.2.streams key with
          | none =>
            rw [hs] at hkey
            simp only [Option.map_none] at hkey
            constructor
            · intro _; exact ⟨_, rfl⟩
            · intro _ hm; rw [if_pos hm] at hkey; cases hkey
          | some st =>
            rw [hs] at hkey
            constructor
            · intro hm; rw [if_neg hm] at hkey; cases hkey
            · rintro ⟨r', h⟩; cases h
        · intro r' hr' k
          simp only [step, initStream] at hr'
          cases hs : r.2.streams key with
          | some st => rw [hs] at hr'; cases hr'
          | none =>
            rw [hs] at hr' hkey
            simp only [Option.some.injEq] at hr'
            subst hr'
            rw [inits_snoc, recs_snoc]
            simp only [List.map_append, List.map_cons, List.map_nil, List.mem_append,
              List.mem_singleton, List.append_nil]
            by_cases e : k = key
            · subst e
              simp only [if_true, or_true, Option.map_some]
              have hno : k ∉ (inits ops).map Prod.fst := by
                intro hm; rw [if_pos hm] at hkey; cases hkey
              have : recs k ops = [] := by
                by_contra hne
                obtain ⟨b, hb⟩ := List.exists_mem_of_ne_nil _ hne
                unfold recs at hb
                obtain ⟨x, hx, hxb⟩ := List.mem_filterMap.1 hb
                cases x with
                | init _ _ => cases hxb
                | amends _ => cases hxb
                | log k' b' =>
                  simp only at hxb
                  split at hxb
                  · rename_i e; subst e
                    obtain ⟨pre, post, hpp⟩ := List.append_of_mem hx
                    have := (ih.2 r hr).1.2.1 pre post _ _ hpp
                    apply hno
                    rw [hpp]
                    simp only [inits, List.filterMap_append, List.map_append, List.mem_append]
                    exact Or.inl this
                  · cases hxb
              rw [this]; rfl
            · simp only [e, if_false, or_false]
              exact hk k
      | log key b =>
        have hkey := hk key
        constructor
        · simp only [Next, step, log]
          cases hs : r.2.streams key with
          | none =>
            rw [hs] at hkey
            constructor
            · rintro ⟨hm, _⟩; rw [if_pos hm] at hkey; cases hkey
            · rintro ⟨r', h⟩; cases h
          | some st =>
            rw [hs] at hkey
            simp only [Option.map_some] at hkey
            by_cases hm : key ∈ (inits ops).map Prod.fst
            · rw [if_pos hm] at hkey
              have hn : st.num = (recs key ops).length := Option.some.inj hkey
              dsimp only
              rw [hn]
              constructor
              · rintro ⟨_, hl⟩; rw [if_pos hl]; exact ⟨_, rfl⟩
              · rintro ⟨r', h⟩
                refine ⟨hm, ?_⟩
                by_contra hl
                simp only [if_neg hl] at h
                cases h
            · rw [if_neg hm] at hkey; cases hkey
        · intro r' hr' k
          simp only [step, log] at hr'
          cases hs : r.2.streams key with
          | none => rw [hs] at hr'; cases hr'
          | some st =>
            rw [hs] at hr' hkey
            simp only at hr'
            split at hr'
            · simp only [Option.some.injEq] at hr'
              subst hr'
              rw [inits_snoc, recs_snoc]
              simp only [List.append_nil]
              by_cases e : k = key
              · subst e
                simp only [if_true, Option.map_some] at hkey ⊢
                by_cases hm : k ∈ (inits ops).map Prod.fst
                · rw [if_pos hm] at hkey ⊢
                  have hn : st.num = (recs k ops).length := Option.some.inj hkey
                  rw [hn]; simp
                · rw [if_neg hm] at hkey; cases hkey
              · simp only [e, Ne.symm e, if_false, List.append_nil]
                exact hk k
            · cases hr'
      | amends p =>
        constructor
        · simp [Next, step]
        · intro r' hr' k
          simp only [step, Option.some.injEq] at hr'
          subst hr'
          rw [inits_snoc, recs_snoc]
          simp only [List.append_nil]
          exact hk k
    constructor
    · rintro ⟨hl, hn⟩
      obtain ⟨r, hr⟩ := ih.1 hl
      obtain ⟨r', hr'⟩ := (stepOk r hr).1.1 hn
      exact ⟨r', by rw [hr]; exact hr'⟩
    · intro r' hr'
      cases hr : run s ops with
      | none => rw [hr] at hr'; cases hr'
      | some r =>
        rw [hr] at hr'
        exact ⟨⟨(ih.2 r hr).1, (stepOk r hr).1.2 ⟨r', hr'⟩⟩, (stepOk r hr).2 r' hr'⟩

/-- A logger aborts on a sequence of calls exactly if some stream is made twice, a record comes
before its stream, or a stream has 2^31 records or more. -/
theorem C119_defined (fs : FS φ) (t : Time) (root : List Char) (ops : List (Op φ)) :
    (∃ r, run (openLog fs blank t root) ops = some r) ↔ Legal ops := by
  have h := run_counts (openLog fs blank t root) rfl ops
  exact ⟨fun ⟨r, hr⟩ => (h.2 r hr).1, h.1⟩

/-! ### The files -/

theorem put_create (fs : FS φ) (hs : Sound fs) (d : Dir) (n : Name) (c : Content φ)
    (hd : fs.dirs d = true) (hn : fs.paths d n = none) :
    let fs' := (fs.create d n).1.put (fs.create d n).2 c
    Sound fs' ∧ fs'.dirs = fs.dirs ∧ (∃ i, (fs.create d n).2 = some i ∧ fs'.paths d n = some i) ∧
      fs'.read d n = some c ∧
      (∀ d' n', ¬ (d' = d ∧ n' = n) → fs'.paths d' n' = fs.paths d' n') ∧
      (∀ d' n', ¬ (d' = d ∧ n' = n) → fs'.read d' n' = fs.read d' n') := by
  have hc : fs.create d n =
      ({ fs with paths := fun d' n' => if d' = d ∧ n' = n then some fs.next else fs.paths d' n'
                 data := fun j => if j = fs.next then .bytes [] else fs.data j
                 next := fs.next + 1 }, some fs.next) := by
    unfold FS.create
    rw [if_pos hd, hn]
  rw [hc]
  simp only [FS.put]
  refine ⟨⟨?_, ?_, ?_⟩, trivial, ⟨fs.next, by simp⟩, ?_, ?_, ?_⟩
  · intro d' n' i hi
    simp only at hi
    split at hi
    · have : fs.next = i := Option.some.inj hi
      show i < fs.next + 1; omega
    · have := hs.old d' n' i hi
      show i < fs.next + 1; omega
  · intro d1 n1 d2 n2 i h1 h2
    simp only at h1 h2
    split at h1 <;> split at h2
    · rename_i a b; exact ⟨a.1.trans b.1.symm, a.2.trans b.2.symm⟩
    · have : fs.next = i := Option.some.inj h1
      have := hs.old d2 n2 i h2; omega
    · have : fs.next = i := Option.some.inj h2
      have := hs.old d1 n1 i h1; omega
    · exact hs.own d1 n1 d2 n2 i h1 h2
  · intro d' n' i hi
    simp only at hi
    split at hi
    · rename_i a; rw [a.1]; exact hd
    · exact hs.dir d' n' i hi
  · simp [FS.read]
  · intro d' n' h; simp only [if_neg h]
  · intro d' n' h
    simp only [FS.read, if_neg h]
    cases hp : fs.paths d' n' with
    | none => rfl
    | some i =>
      have := hs.old d' n' i hp
      simp only [Option.map_some]
      rw [if_neg (by omega), if_neg (by omega)]

theorem create_put_bytes (fs : FS φ) (d : Dir) (n : Name) (hd : fs.dirs d = true)
    (hn : fs.paths d n = none) :
    (fs.create d n).1.put (fs.create d n).2 (.bytes []) = (fs.create d n).1 := by
  unfold FS.create
  rw [if_pos hd, hn]
  simp only [FS.put]
  congr 1
  funext j
  split <;> rfl

theorem append_read (fs : FS φ) (hs : Sound fs) (d : Dir) (n : Name) (i : Nat) (b0 b : List UInt8)
    (hp : fs.paths d n = some i) (hr : fs.read d n = some (.bytes b0)) :
    Sound (fs.append (some i) b) ∧ (fs.append (some i) b).dirs = fs.dirs ∧
      (fs.append (some i) b).paths = fs.paths ∧
      (fs.append (some i) b).read d n = some (.bytes (b0 ++ b)) ∧
      ∀ d' n', ¬ (d' = d ∧ n' = n) → (fs.append (some i) b).read d' n' = fs.read d' n' := by
  have hd : fs.data i = .bytes b0 := by
    unfold FS.read at hr; rw [hp] at hr; exact Option.some.inj hr
  have e : fs.append (some i) b = fs.put (some i) (.bytes (b0 ++ b)) := by
    unfold FS.append; simp only [hd]
  rw [e]
  refine ⟨⟨hs.old, hs.own, hs.dir⟩, rfl, rfl, ?_, ?_⟩
  · simp [FS.read, FS.put, hp]
  · intro d' n' h
    unfold FS.read FS.put
    simp only
    cases hq : fs.paths d' n' with
    | none => rfl
    | some j =>
      have : j ≠ i := by
        intro e; subst e
        exact h (hs.own d' n' d n j hq hp)
      simp [this]

/-- State of a log in the making. -/
structure Inv (fs0 : FS φ) (dir : Dir) (id : List Char) (t : Time) (ops : List (Op φ))
    (s : FS φ × Logger φ) : Prop where
  sound : Sound s.1
  here : s.1.dirs dir = true
  dirEq : s.2.dir = dir
  idEq : s.2.id = id
  man : s.2.man = ⟨id, t, none, (inits ops).map Prod.fst, (inits ops).map fun p => logKeyName p.1,
    amended ops⟩
  keys : s.2.keys = (inits ops).map Prod.fst
  str : ∀ k f, (k, f) ∈ inits ops → ∃ i,
    s.2.streams k = some ⟨(recs k ops).length, dir, k, some i, id, f⟩ ∧
    s.1.paths dir (.log (logKeyName k)) = some i ∧
    s.1.read dir (.log (logKeyName k)) = some (.bytes (recs k ops).flatten)
  only : ∀ n, s.1.paths dir n ≠ none → ∃ p ∈ inits ops, n = .log (logKeyName p.1)
  other : ∀ d, d ≠ dir → ∀ n, s.1.read d n = fs0.read d n

theorem inv_open (fs : FS φ) (hs : Sound fs) (t : Time) (root : List Char) :
    Inv fs (root, createLogId t.sec.toNat) (createLogId t.sec.toNat) t []
      (openLog fs blank t root) := by
  refine ⟨⟨?_, ?_, ?_⟩, ?_, rfl, rfl, rfl, rfl, ?_, ?_, ?_⟩
  · intro d n i h
    simp only [openLog, FS.makeDir, FS.removeDir] at h
    split at h
    · cases h
    · exact hs.old d n i h
  · intro d n d' n' i h h'
    simp only [openLog, FS.makeDir, FS.removeDir] at h h'
    split at h
    · cases h
    · split at h'
      · cases h'
      · exact hs.own d n d' n' i h h'
  · intro d n i h
    simp only [openLog, FS.makeDir, FS.removeDir] at h ⊢
    split at h
    · cases h
    · rename_i hd
      rw [if_neg hd, if_neg hd]
      exact hs.dir d n i h
  · simp [openLog, FS.makeDir]
  · intro k f h; cases h
  · intro n h; exact absurd (by simp [openLog, FS.makeDir, FS.removeDir]) h
  · intro d hd n
    unfold FS.read
    simp only [openLog, FS.makeDir, FS.removeDir]
    rw [if_neg hd]

theorem distinct_pre (ops : List (Op φ)) (o : Op φ) (h : Distinct (ops ++ [o])) : Distinct ops := by
  intro a ha b hb
  apply h <;> rw [inits_snoc] <;> exact List.mem_append_left _ (by assumption)

theorem inv_run (fs0 : FS φ) (dir : Dir) (id : List Char) (t : Time) (s0 : FS φ × Logger φ)
    (h0 : Inv fs0 dir id t [] s0) (hst : s0.2.streams = fun _ => none) (ops : List (Op φ)) :
    ∀ r, run s0 ops = some r → Distinct ops → Inv fs0 dir id t ops r := by
  induction ops using List.reverseRecOn with
  | nil =>
    intro r hr _
    have : s0 = r := by simpa [run] using hr
    subst this; exact h0
  | append_singleton ops o ih =>
    intro r' hr' hd
    have cnt' := (run_counts s0 hst (ops ++ [o])).2 r' hr'
    rw [run_snoc] at hr'
    cases hr : run s0 ops with
    | none => rw [hr] at hr'; cases hr'
    | some r =>
      rw [hr] at hr'
      have I := ih r hr (distinct_pre ops o hd)
      have nx := ((legal_snoc ops o).1 cnt'.1).2
      simp only [Option.bind_some] at hr'
      cases o with
      | amends p =>
        simp only [step, Option.some.injEq] at hr'
        subst hr'
        refine ⟨I.sound, I.here, I.dirEq, I.idEq, ?_, ?_, ?_, ?_, I.other⟩
        · rw [amended_snoc, inits_snoc]
          simp [amends, I.man]
        · rw [inits_snoc]; simpa [amends] using I.keys
        · intro k f h
          rw [inits_snoc, List.append_nil] at h
          rw [recs_snoc, List.append_nil]
          exact I.str k f h
        · intro n h
          rw [inits_snoc, List.append_nil]
          exact I.only n h
      | init key f =>
        have hno : r.2.streams key = none := by
          simp only [step, initStream] at hr'
          cases hs : r.2.streams key with
          | none => rfl
          | some st => rw [hs] at hr'; cases hr'
        simp only [step, initStream, hno, Option.some.injEq] at hr'
        have hname : ∀ p ∈ inits ops, logKeyName p.1 ≠ logKeyName key := by
          intro p hp e
          have := hd p (by rw [inits_snoc]; exact List.mem_append_left _ hp) (key, f)
            (by rw [inits_snoc]; simp) e
          exact nx (List.mem_map.2 ⟨p, hp, this⟩)
        have hfree : r.1.paths dir (.log (logKeyName key)) = none := by
          by_contra hne
          obtain ⟨p, hp, e⟩ := I.only _ hne
          exact hname p hp (Name.log.inj e).symm
        have hrec : recs key ops = [] := by
          by_contra hne
          have := (run_counts s0 hst ops).2 r hr
          have hk := this.2 key
          rw [if_neg nx] at hk
          obtain ⟨b, hb⟩ := List.exists_mem_of_ne_nil _ hne
          unfold recs at hb
          obtain ⟨x, hx, hxb⟩ := List.mem_filterMap.1 hb
          cases x with
          | init _ _ => cases hxb
          | amends _ => cases hxb
          | log k' b' =>
            simp only at hxb
            split at hxb
            · rename_i e; subst e
              obtain ⟨pre, post, hpp⟩ := List.append_of_mem hx
              have := this.1.2.1 pre post _ _ hpp
              apply nx
              rw [hpp]
              simp only [inits, List.filterMap_append, List.map_append, List.mem_append]
              exact Or.inl this
            · cases hxb
        have P := put_create r.1 I.sound dir (.log (logKeyName key)) (.bytes []) I.here hfree
        rw [create_put_bytes r.1 dir _ I.here hfree] at P
        obtain ⟨P1, P2, ⟨i, P3, P4⟩, P5, P6, P7⟩ := P
        rw [I.dirEq, I.idEq] at hr'
        subst hr'
        refine ⟨P1, by rw [P2]; exact I.here, rfl, rfl, ?_, ?_, ?_, ?_, ?_⟩
        · rw [amended_snoc, inits_snoc]
          simp [I.man]
        · rw [inits_snoc]
          simp [I.keys]
        · intro k g h
          rw [inits_snoc] at h
          rw [recs_snoc, List.append_nil]
          rcases List.mem_append.1 h with h | h
          · have hk : k ≠ key := by
              intro e
              exact nx (List.mem_map.2 ⟨(k, g), h, e⟩)
            obtain ⟨j, J1, J2, J3⟩ := I.str k g h
            have hne : ¬ (dir = dir ∧ Name.log (logKeyName k) = Name.log (logKeyName key)) := by
              rintro ⟨_, e⟩
              exact hname (k, g) h (Name.log.inj e)
            refine ⟨j, ?_, ?_, ?_⟩
            · simp only [if_neg hk]; exact J1
            · exact (P6 _ _ hne).trans J2
            · exact (P7 _ _ hne).trans J3
          · simp only [List.mem_singleton, Prod.mk.injEq] at h
            obtain ⟨rfl, rfl⟩ := h
            refine ⟨i, ?_, P4, ?_⟩
            · simp only [if_true, P3, hrec, List.length_nil]
            · rw [hrec]; exact P5
        · intro n h
          rw [inits_snoc]
          by_cases e : n = .log (logKeyName key)
          · exact ⟨(key, f), by simp, e⟩
          · have := P6 dir n (by rintro ⟨_, e'⟩; exact e e')
            simp only [] at h
            rw [this] at h
            obtain ⟨p, hp, e'⟩ := I.only n h
            exact ⟨p, List.mem_append_left _ hp, e'⟩
        · intro d hdd n
          exact (P7 d n (by rintro ⟨e, _⟩; exact hdd e)).trans (I.other d hdd n)
      | log key b =>
        obtain ⟨hm, hlen⟩ := nx
        obtain ⟨⟨k0, f0⟩, hp0, e0⟩ := List.mem_map.1 hm
        simp only at e0
        subst e0
        obtain ⟨i, J1, J2, J3⟩ := I.str k0 f0 hp0
        simp only [step, log, J1, if_pos hlen, Option.some.injEq] at hr'
        obtain ⟨P1, P2, P3, P4, P5⟩ := append_read r.1 I.sound dir _ i _ b J2 J3
        subst hr'
        refine ⟨P1, by rw [P2]; exact I.here, I.dirEq, I.idEq, ?_, ?_, ?_, ?_, ?_⟩
        · rw [amended_snoc, inits_snoc]
          simp [I.man]
        · rw [inits_snoc]
          simp [I.keys]
        · intro k g h
          rw [inits_snoc, List.append_nil] at h
          rw [recs_snoc]
          by_cases e : k = k0
          · subst e
            have hfg : (k, g) = (k, f0) := List.inj_on_of_nodup_map
              ((legal_snoc ops _).1 cnt'.1).1.1 h hp0 rfl
            have hg : g = f0 := (Prod.mk.inj hfg).2
            subst hg
            refine ⟨i, ?_, ?_, ?_⟩
            · simp
            · rw [P3]; exact J2
            · simpa using P4
          · obtain ⟨j, K1, K2, K3⟩ := I.str k g h
            have hne : ¬ (dir = dir ∧ Name.log (logKeyName k) = Name.log (logKeyName k0)) := by
              rintro ⟨_, e'⟩
              exact e (distinct_pre ops _ hd (k, g) h (k0, f0) hp0 (Name.log.inj e'))
            refine ⟨j, ?_, ?_, ?_⟩
            · simp only [if_neg e, if_neg (Ne.symm e), List.append_nil]; exact K1
            · rw [P3]; exact K2
            · simp only [if_neg (Ne.symm e), List.append_nil]
              exact (P5 _ _ hne).trans K3
        · intro n h
          rw [inits_snoc, List.append_nil]
          rw [P3] at h
          exact I.only n h
        · intro d hdd n
          exact (P5 d n (by rintro ⟨e, _⟩; exact hdd e)).trans (I.other d hdd n)

/-- Ending the streams `ks`, all in one directory and with different names. -/
theorem endAll_read (streams : Int → Option (Stream φ)) (dir : Dir) :
    ∀ (ks : List Int) (fs : FS φ), Sound fs → fs.dirs dir = true →
    (∀ k ∈ ks, ∃ st, streams k = some st ∧ st.dir = dir ∧ st.key = k) →
    (ks.map logKeyName).Nodup → (∀ k ∈ ks, fs.paths dir (.yml (logKeyName k)) = none) →
    Sound (endAll streams ks fs) ∧ (endAll streams ks fs).dirs = fs.dirs ∧
    (∀ k ∈ ks, ∀ st, streams k = some st →
      (endAll streams ks fs).read dir (.yml (logKeyName k)) = some (.info st.id k st.fmt st.num)) ∧
    (∀ d n, (∀ k ∈ ks, ¬ (d = dir ∧ n = .yml (logKeyName k))) →
      (endAll streams ks fs).paths d n = fs.paths d n ∧
      (endAll streams ks fs).read d n = fs.read d n) := by
  intro ks
  induction ks with
  | nil =>
    intro fs hs hd _ _ _
    exact ⟨hs, rfl, by simp, fun d n _ => ⟨rfl, rfl⟩⟩
  | cons k ks ih =>
    intro fs hs hd hk hnd hfree
    obtain ⟨st, h1, h2, h3⟩ := hk k List.mem_cons_self
    simp only [List.map_cons, List.nodup_cons] at hnd
    have P := put_create fs hs dir (.yml (logKeyName k))
      (.info st.id st.key st.fmt st.num) hd (hfree k List.mem_cons_self)
    have he : endAll streams (k :: ks) fs = endAll streams ks (endStream fs st) := by
      rw [endAll, h1]
    have hE : endStream fs st = (fs.create dir (.yml (logKeyName k))).1.put
        (fs.create dir (.yml (logKeyName k))).2 (.info st.id st.key st.fmt st.num) := by
      unfold endStream; rw [h2, h3]
    rw [he, hE]
    obtain ⟨P1, P2, _, P5, P6, P7⟩ := P
    have hne : ∀ k' ∈ ks, ¬ (dir = dir ∧ Name.yml (logKeyName k') = Name.yml (logKeyName k)) := by
      rintro k' hk' ⟨_, e⟩
      exact hnd.1 (by rw [← Name.yml.inj e]; exact List.mem_map_of_mem hk')
    obtain ⟨Q1, Q2, Q3, Q4⟩ := ih _ P1 (by rw [P2]; exact hd)
      (fun k' hk' => hk k' (List.mem_cons_of_mem _ hk')) hnd.2
      (fun k' hk' => (P6 _ _ (hne k' hk')).trans (hfree k' (List.mem_cons_of_mem _ hk')))
    refine ⟨Q1, Q2.trans P2, ?_, ?_⟩
    · intro k' hk' st' hst'
      rcases List.mem_cons.1 hk' with e | hk'
      · subst e
        have : st' = st := Option.some.inj (hst'.symm.trans h1)
        subst this
        have := (Q4 dir (.yml (logKeyName k')) (by
          rintro j hj ⟨_, e⟩
          exact hne j hj ⟨rfl, e.symm⟩)).2
        rw [this, P5, h3]
      · exact Q3 k' hk' st' hst'
    · intro d n h
      have := Q4 d n (fun j hj => h j (List.mem_cons_of_mem _ hj))
      have h0 := h k List.mem_cons_self
      exact ⟨this.1.trans (P6 d n h0), this.2.trans (P7 d n h0)⟩

theorem find_name (ops : List (Op φ)) (hd : Distinct ops) (hn : ((inits ops).map Prod.fst).Nodup)
    (p : Int × φ) (hp : p ∈ inits ops) :
    (inits ops).find? (fun q => logKeyName q.1 = logKeyName p.1) = some p := by
  cases h : (inits ops).find? (fun q => logKeyName q.1 = logKeyName p.1) with
  | none =>
    have := List.find?_eq_none.1 h p hp
    simp at this
  | some q =>
    have hq := List.mem_of_find?_eq_some h
    have e := List.find?_some h
    simp only [decide_eq_true_eq] at e
    have := List.inj_on_of_nodup_map hn hq hp (hd q hq p hp e)
    rw [this]

/-- **C119.** For every file system, every sequence of calls that is not aborted, and every order in
which the map of streams is emptied: after `close` the directory of the log has exactly the expected
files (for each stream its records in the order they were logged, and its key, format and number of
records; the manifest with times, keys and names), and no file elsewhere has changed. -/
theorem C119_files (fs : FS φ) (hs : Sound fs) (t e : Time) (root : List Char) (ops : List (Op φ))
    (hd : Distinct ops) (ord : List Int → List Int) (hord : ∀ l, (ord l).Perm l)
    (r : FS φ × Logger φ) (h : run (openLog fs blank t root) ops = some r) :
    Sound (close ord r.1 r.2 e).1 ∧
    (∀ n, (close ord r.1 r.2 e).1.read (root, createLogId t.sec.toNat) n =
      expected (createLogId t.sec.toNat) t e ops n) ∧
    ∀ d, d ≠ (root, createLogId t.sec.toNat) → ∀ n, (close ord r.1 r.2 e).1.read d n = fs.read d n := by
  generalize hdir : (root, createLogId t.sec.toNat) = dir
  have I0 := inv_open fs hs t root
  rw [hdir] at I0
  have I := inv_run fs dir _ t _ I0 rfl ops r h hd
  have L := ((run_counts (openLog fs blank t root) rfl ops).2 r h).1
  have hperm : (ord r.2.keys).Perm ((inits ops).map Prod.fst) := by
    rw [← I.keys]; exact hord _
  have hmem : ∀ k ∈ ord r.2.keys, ∃ f, (k, f) ∈ inits ops := by
    intro k hk
    obtain ⟨⟨k', f⟩, hp, e⟩ := List.mem_map.1 (hperm.mem_iff.1 hk)
    simp only at e
    subst e; exact ⟨f, hp⟩
  have hg : ∀ k ∈ ord r.2.keys, ∃ st : Stream φ, r.2.streams k = some st ∧ st.dir = dir ∧ st.key = k := by
    intro k hk
    obtain ⟨f, hp⟩ := hmem k hk
    obtain ⟨i, J, _⟩ := I.str k f hp
    exact ⟨_, J, rfl, rfl⟩
  have hnames : ((ord r.2.keys).map logKeyName).Nodup := by
    apply List.Nodup.map_on
    · intro a ha b hb e
      obtain ⟨f, hp⟩ := hmem a ha
      obtain ⟨f', hp'⟩ := hmem b hb
      exact hd _ hp _ hp' e
    · exact hperm.nodup_iff.2 L.1
  have hfree : ∀ k ∈ ord r.2.keys, r.1.paths dir (.yml (logKeyName k)) = none := by
    intro k _
    by_contra hne
    obtain ⟨p, _, e⟩ := I.only _ hne
    cases e
  obtain ⟨Q1, Q2, Q3, Q4⟩ := endAll_read r.2.streams dir (ord r.2.keys) r.1 I.sound I.here hg hnames
    hfree
  generalize hfs1 : endAll r.2.streams (ord r.2.keys) r.1 = fs1 at Q1 Q2 Q3 Q4
  have hmfree : fs1.paths dir .manifest = none := by
    rw [(Q4 dir .manifest (by rintro k _ ⟨_, e⟩; cases e)).1]
    by_contra hne
    obtain ⟨p, _, e⟩ := I.only _ hne
    cases e
  obtain ⟨P1, P2, _, P5, P6, P7⟩ := put_create fs1 Q1 dir .manifest
    (.manifest { r.2.man with stop := some e }) (by rw [Q2]; exact I.here) hmfree
  have hclose : (close ord r.1 r.2 e).1 = (fs1.create dir .manifest).1.put (fs1.create dir .manifest).2
      (.manifest { r.2.man with stop := some e }) := by
    unfold close; simp only [hfs1, I.dirEq]
  rw [hclose]
  refine ⟨P1, ?_, ?_⟩
  · intro n
    cases n with
    | manifest =>
      rw [P5, I.man]; rfl
    | log n =>
      rw [P7 _ _ (by rintro ⟨_, e⟩; cases e), (Q4 dir (.log n) (by rintro k _ ⟨_, e⟩; cases e)).2]
      unfold expected
      dsimp only
      by_cases hex : ∃ p ∈ inits ops, logKeyName p.1 = n
      · obtain ⟨⟨k, f⟩, hp, e⟩ := hex
        subst e
        rw [find_name ops hd L.1 (k, f) hp]
        obtain ⟨i, _, _, J3⟩ := I.str k f hp
        exact J3
      · have hnone : (inits ops).find? (fun p => logKeyName p.1 = n) = none := by
          rw [List.find?_eq_none]
          intro p hp e
          exact hex ⟨p, hp, by simpa using e⟩
        rw [hnone]
        have : r.1.paths dir (.log n) = none := by
          by_contra hne
          obtain ⟨p, hp, e⟩ := I.only _ hne
          exact hex ⟨p, hp, (Name.log.inj e).symm⟩
        unfold FS.read
        rw [this]; rfl
    | yml n =>
      rw [P7 _ _ (by rintro ⟨_, e⟩; cases e)]
      unfold expected
      dsimp only
      by_cases hex : ∃ p ∈ inits ops, logKeyName p.1 = n
      · obtain ⟨⟨k, f⟩, hp, e⟩ := hex
        subst e
        rw [find_name ops hd L.1 (k, f) hp]
        obtain ⟨i, J1, _, _⟩ := I.str k f hp
        have hk : k ∈ ord r.2.keys := hperm.mem_iff.2 (List.mem_map.2 ⟨(k, f), hp, rfl⟩)
        exact Q3 k hk _ J1
      · have hnone : (inits ops).find? (fun p => logKeyName p.1 = n) = none := by
          rw [List.find?_eq_none]
          intro p hp e
          exact hex ⟨p, hp, by simpa using e⟩
        rw [hnone]
        have hq := Q4 dir (.yml n) (by
          rintro k hk ⟨_, e⟩
          obtain ⟨f, hp⟩ := hmem k hk
          exact hex ⟨(k, f), hp, (Name.yml.inj e).symm⟩)
        have : r.1.paths dir (.yml n) = none := by
          by_contra hne
          obtain ⟨p, _, e⟩ := I.only _ hne
          cases e
        rw [hq.2]
        unfold FS.read
        rw [this]; rfl
  · intro d hdd n
    rw [P7 d n (by rintro ⟨e, _⟩; exact hdd e),
      (Q4 d n (by rintro k _ ⟨e, _⟩; exact hdd e)).2]
    exact I.other d hdd n

/-! ### The name of a log -/

theorem monthDays_le (y m : Nat) : monthDays y m ≤ 31 := by
  unfold monthDays; split
  · split <;> omega
  · split <;> omega

theorem date_ok (n : Nat) : 1 ≤ (dateOf n).month ∧ (dateOf n).month ≤ 12 ∧ 1 ≤ (dateOf n).day ∧
    (dateOf n).day ≤ 31 := by
  induction n with
  | zero => decide
  | succ n ih =>
    rw [dateOf, Date.next]
    have := monthDays_le (dateOf n).year (dateOf n).month
    split
    · simp only; omega
    · split
      · simp only; omega
      · simp only; omega

/-- Dates in their order. -/
def ordinal (d : Date) : Nat := d.year * 372 + d.month * 31 + d.day

theorem ordinal_lt (n : Nat) : ordinal (dateOf n) < ordinal (dateOf (n + 1)) := by
  have h := date_ok n
  rw [show dateOf (n + 1) = (dateOf n).next from rfl, Date.next]
  unfold ordinal
  split
  · simp only; omega
  · split
    · simp only; omega
    · simp only; omega

theorem dateOf_inj (m n : Nat) (h : dateOf m = dateOf n) : m = n := by
  have mono : StrictMono fun n => ordinal (dateOf n) := strictMono_nat_of_lt_succ ordinal_lt
  exact mono.injective (congrArg ordinal h)

theorem decVal_pad (w n : Nat) : decVal (pad w n) = n := by
  unfold pad
  generalize w - (digits n).length = k
  induction k with
  | zero => exact decVal_digits n
  | succ k ih =>
    have : decVal (List.replicate (k + 1) '0' ++ digits n) =
        decVal (List.replicate k '0' ++ digits n) := by
      rw [List.replicate_succ, List.cons_append]
      unfold decVal
      rw [List.foldl_cons]
      rfl
    rw [this, ih]

theorem pad_inj {w m n : Nat} (h : pad w m = pad w n) : m = n := by
  rw [← decVal_pad w m, h, decVal_pad]

theorem pad_two (n : Nat) (h : n < 100) : (pad 2 n).length = 2 := by
  have := (digits_length n 1).2 h
  unfold pad
  rw [List.length_append, List.length_replicate]
  omega

/-- Logs that start in different seconds have different names. -/
theorem C119_id (a b : Nat) : createLogId a = createLogId b ↔ a = b := by
  constructor
  · intro h
    unfold createLogId at h
    simp only at h
    have A := date_ok (a / 86400)
    have B := date_ok (b / 86400)
    have ha := Nat.mod_lt a (show 0 < 86400 by omega)
    have hb := Nat.mod_lt b (show 0 < 86400 by omega)
    have two : ∀ x y : Nat, x < 100 → y < 100 → (pad 2 x).length = (pad 2 y).length := by
      intro x y hx hy; rw [pad_two x hx, pad_two y hy]
    obtain ⟨h, e1⟩ := List.append_inj' h (two _ _ (by omega) (by omega))
    obtain ⟨h, e2⟩ := List.append_inj' h (two _ _ (by omega) (by omega))
    obtain ⟨h, e3⟩ := List.append_inj' h (two _ _ (by omega) (by omega))
    obtain ⟨h, -⟩ := List.append_inj' h rfl
    obtain ⟨h, e4⟩ := List.append_inj' h (two _ _ (by omega) (by omega))
    obtain ⟨h, e5⟩ := List.append_inj' h (two _ _ (by omega) (by omega))
    have e1 := pad_inj e1
    have e2 := pad_inj e2
    have e3 := pad_inj e3
    have hd : dateOf (a / 86400) = dateOf (b / 86400) := by
      generalize dateOf (a / 86400) = x at h e4 e5
      generalize dateOf (b / 86400) = y at h e4 e5
      obtain ⟨y1, m1, d1⟩ := x
      obtain ⟨y2, m2, d2⟩ := y
      rw [Date.mk.injEq]
      exact ⟨pad_inj h, pad_inj e5, pad_inj e4⟩
    have := dateOf_inj _ _ hd
    omega
  · intro h; rw [h]

/-- The end of February 1970 and 1972. -/
example : dateOf 59 = ⟨1970, 3, 1⟩ ∧ dateOf 789 = ⟨1972, 2, 29⟩ ∧ dateOf 790 = ⟨1972, 3, 1⟩ := by
  decide +kernel

/-! ### What goes wrong -/

theorem put_existing (fs : FS φ) (hs : Sound fs) (d : Dir) (n : Name) (c c0 : Content φ)
    (hr : fs.read d n = some c0) :
    let fs' := (fs.create d n).1.put (fs.create d n).2 c
    fs'.read d n = some c ∧ ∀ d' n', ¬ (d' = d ∧ n' = n) → fs'.read d' n' = fs.read d' n' := by
  cases hp : fs.paths d n with
  | none => unfold FS.read at hr; rw [hp] at hr; cases hr
  | some i =>
    have hc : fs.create d n = (fs.put (some i) (.bytes []), some i) := by
      unfold FS.create
      rw [if_pos (hs.dir d n i hp), hp]
    rw [hc]
    simp only [FS.put, FS.read]
    refine ⟨by simp [hp], ?_⟩
    intro d' n' h
    cases hq : fs.paths d' n' with
    | none => rfl
    | some j =>
      have : j ≠ i := by
        intro e; subst e
        exact h (hs.own d' n' d n j hq hp)
      simp [this]

/-- The end time given to `close` is never kept: the destructor (log_writer.h 69) closes again, with
the time of the clock, and the manifest is written anew.  All the rest stays. -/
theorem C119_end_violated (fs : FS φ) (hs : Sound fs) (t e now : Time) (root : List Char)
    (ops : List (Op φ)) (hd : Distinct ops) (ord : List Int → List Int) (hord : ∀ l, (ord l).Perm l)
    (r : FS φ × Logger φ) (h : run (openLog fs blank t root) ops = some r) (n : Name) :
    let c := close ord r.1 r.2 e
    (close ord c.1 c.2 now).1.read (root, createLogId t.sec.toNat) n =
      expected (createLogId t.sec.toNat) t now ops n := by
  intro c
  obtain ⟨S, F, -⟩ := C119_files fs hs t e root ops hd ord hord r h
  have I := inv_run fs _ _ t _ (inv_open fs hs t root) rfl ops r h hd
  have hk : ord c.2.keys = [] := by
    have : c.2.keys = [] := rfl
    rw [this]; exact (hord []).eq_nil
  have hdir : c.2.dir = (root, createLogId t.sec.toNat) := I.dirEq
  have hman : { c.2.man with stop := some now } = { r.2.man with stop := some now } := rfl
  have P := put_existing c.1 S (root, createLogId t.sec.toNat) .manifest
    (.manifest { r.2.man with stop := some now }) _ (F .manifest)
  have hc : (close ord c.1 c.2 now).1 =
      (c.1.create (root, createLogId t.sec.toNat) .manifest).1.put
        (c.1.create (root, createLogId t.sec.toNat) .manifest).2
        (.manifest { r.2.man with stop := some now }) := by
    conv_lhs => unfold close
    simp only [hk, endAll, hdir]
    rfl
  rw [hc]
  by_cases hn : n = .manifest
  · subst hn
    rw [P.1, I.man]; rfl
  · rw [P.2 _ _ (by rintro ⟨_, e⟩; exact hn e), F n]
    cases n with
    | manifest => exact absurd rfl hn
    | log n => rfl
    | yml n => rfl

/-- Opening a log leaves the logs of other seconds alone … -/
theorem C119_kept (fs : FS φ) (L : Logger φ) (t t' : Time) (root : List Char) (h0 : 0 ≤ t.sec)
    (h0' : 0 ≤ t'.sec) (h : t.sec ≠ t'.sec) (n : Name) :
    (openLog fs L t' root).1.read (root, createLogId t.sec.toNat) n =
      fs.read (root, createLogId t.sec.toNat) n := by
  have : (root, createLogId t.sec.toNat) ≠ (root, createLogId t'.sec.toNat) := by
    intro e
    have := (C119_id _ _).1 (Prod.mk.inj e).2
    omega
  unfold FS.read
  simp only [openLog, FS.makeDir, FS.removeDir]
  rw [if_neg this]

/-- … and removes every file of an earlier log of the same second. -/
theorem C119_same_second_violated (fs : FS φ) (L : Logger φ) (t t' : Time) (root : List Char)
    (h : t.sec = t'.sec) (n : Name) :
    (openLog fs L t' root).1.read (root, createLogId t.sec.toNat) n = none := by
  unfold FS.read
  simp only [openLog, FS.makeDir, FS.removeDir, h]
  simp

/-- Opening a log again without closing it: the streams stay those of the old log, so making one of
them in the new log aborts, a record goes to no file of the new log, and the new manifest does not
name its stream. -/
theorem C119_reopen_violated (fs : FS φ) (t t' : Time) (root root' : List Char) (ops : List (Op φ))
    (r : FS φ × Logger φ) (h : run (openLog fs blank t root) ops = some r) (k : Int)
    (hk : k ∈ (inits ops).map Prod.fst) (f : φ) (b : List UInt8)
    (hmax : (recs k ops).length + 1 < 2 ^ 31) :
    run (openLog r.1 r.2 t' root') [.init k f] = none ∧
    ∃ r', run (openLog r.1 r.2 t' root') [.log k b] = some r' ∧
      (∀ n, r'.1.read (root', createLogId t'.sec.toNat) n = none) ∧ r'.2.man.keys = [] := by
  have hc := ((run_counts (openLog fs blank t root) rfl ops).2 r h).2 k
  rw [if_pos hk] at hc
  cases hs : r.2.streams k with
  | none => rw [hs] at hc; cases hc
  | some st =>
    rw [hs] at hc
    have hnum : st.num = (recs k ops).length := Option.some.inj hc
    have ho : (openLog r.1 r.2 t' root').2.streams k = some st := hs
    constructor
    · simp only [run, List.foldlM_cons, step, initStream, ho]
      rfl
    · refine ⟨_, by
        simp only [run, List.foldlM_cons, List.foldlM_nil, step, log, ho]
        rw [hnum, if_pos hmax]; rfl, ?_, rfl⟩
      intro n
      have hp : ((openLog r.1 r.2 t' root').1.append st.file b).paths =
          (openLog r.1 r.2 t' root').1.paths := by
        unfold FS.append
        split
        · rfl
        · split <;> rfl
      show ((openLog r.1 r.2 t' root').1.append st.file b).read _ n = none
      unfold FS.read
      rw [hp]
      simp [openLog, FS.makeDir, FS.removeDir]

/-- An empty disk. -/
def noFiles : FS Nat := ⟨fun _ => false, fun _ _ => none, fun _ => .bytes [], 0⟩

/-- Two streams, three records, interleaved. -/
def exampleOps : List (Op Nat) :=
  [.init 0 7, .log 0 [1, 2], .init 42 8, .log 42 [3], .amends ("e".toList, "x".toList), .log 0 [4]]

example : Sound noFiles ∧ Distinct exampleOps ∧ Legal exampleOps := by
  refine ⟨⟨?_, ?_, ?_⟩, ?_, ?_⟩
  · intro d n i h; cases h
  · intro d n d' n' i h; cases h
  · intro d n i h; cases h
  · unfold Distinct; decide +kernel
  · rw [← C119_defined noFiles ⟨0, 0⟩ "d".toList]
    refine ⟨_, rfl⟩

end Verif.Props.LogWriter
