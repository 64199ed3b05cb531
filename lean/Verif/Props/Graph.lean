import Verif.Spec.Graph
import Verif.Props.Evaluate

/-!
# C139: factors, their states, and the models that read them
-/

namespace Verif.Props.Graph

open Verif.CB Verif.Model.Graph Verif.Spec.Graph Verif.Spec.Evaluate Verif.Model.Evaluate Verif.Props.Evaluate Verif.QuatMem
  Verif.Model.Lie Verif.Model.Imu Verif.Model.Factor

/-! ## Collections -/

theorem impl_eq (c : Coll) (k n : ℕ) (h : k + n ≤ c.tuple.length) :
    c.impl ((List.range n).map (k + ·)) = some ((c.tuple.drop k).take n) := by
  induction n generalizing k with
  | zero => simp [Coll.impl]
  | succ n ih =>
    have e : (List.range (n + 1)).map (k + ·) = k :: (List.range n).map (k + 1 + ·) := by
      rw [List.range_succ_eq_map, List.map_cons, List.map_map]
      simp only [Nat.add_zero, List.cons.injEq, true_and]
      refine List.map_congr_left fun x _ => ?_
      simp only [Function.comp, Nat.succ_eq_add_one]; omega
    have hk : k < c.tuple.length := by omega
    rw [e, Coll.impl, ih (k + 1) (by omega), List.getElem?_eq_getElem hk, Option.bind_some, Option.map_some,
      List.drop_eq_getElem_cons hk, List.take_succ_cons]

/-- **C139**: a collection gives its arguments, all of them and in their order; `get<i>` and `get_base<i>` give the one at `i`. -/
theorem C139_collection (args : List ℕ) :
    (Coll.new args).baseItems = some args ∧
      ∀ i, (Coll.new args).get i = args[i]? ∧ (Coll.new args).getBase i = args[i]? := by
  refine ⟨?_, fun i => ⟨rfl, rfl⟩⟩
  have h := impl_eq (Coll.new args) 0 args.length (by simp [Coll.new])
  simpa [Coll.baseItems, Coll.new] using h

/-- **C139**: the numbers of a state are as many as `DIM` says; no two classes have the same number. -/
theorem C139_states (c : Cls) (ptr : ℕ) :
    (StateObj.new c ptr).dim = c.numbers ∧ (StateObj.new c ptr).data = ptr ∧ ∀ c', c.ID = c'.ID ↔ c = c' := by
  refine ⟨by cases c <;> rfl, rfl, fun c' => ?_⟩
  cases c <;> cases c' <;> simp [Cls.ID]

/-- The states a solver finds behind typed arguments. -/
theorem states_of {h : Heap} {ts : List Cls} {as : List ℕ} (ht : Typed h ts as) :
    ∃ ss, as.mapM h = some ss ∧ ss.map StateObj.dim = ts.map Cls.DIM ∧ ss.map StateObj.id = ts.map Cls.ID ∧
      List.Forall₂ (fun a s => h a = some s) as ss := by
  induction ht with
  | nil => exact ⟨[], rfl, rfl, rfl, List.Forall₂.nil⟩
  | cons hx _ ih =>
    obtain ⟨s, h1, -, h3, h4⟩ := hx
    obtain ⟨ss, i1, i2, i3, i4⟩ := ih
    exact ⟨s :: ss, by simp [List.mapM_cons, h1, i1], by simp [h3, i2], by simp [h4, i3], List.Forall₂.cons h1 i4⟩

/-- The constructors by the list of their arguments. -/
def build : Kind → List ℕ → Option Factor
  | .gnss, [a, b, c, d] => some (gnss a b c d)
  | .switch, [a, b] => some (gnssSwitch a b)
  | .imu, [a, b, c, d, e] => some (imu a b c d e)
  | .carrier, [a, b, c, d, e, f, g] => some (carrier a b c d e f g)
  | _, _ => none

theorem build_eq {k : Kind} {as : List ℕ} {f : Factor} (h : build k as = some f) :
    f.coll = .new as ∧ f.members = as := by
  unfold build at h
  split at h <;> simp at h <;> subst h <;> exact ⟨rfl, rfl⟩

/-- **C139**: every factor shows a solver the states it was built from, one after the other, and its own references are the same. -/
theorem C139_factor (h : Heap) (k : Kind) (as : List ℕ) (ht : Typed h k.types as) :
    ∃ f ss, build k as = some f ∧ f.members = as ∧ f.states h = some ss ∧
      ss.map StateObj.dim = k.types.map Cls.DIM ∧ ss.map StateObj.id = k.types.map Cls.ID ∧
      List.Forall₂ (fun a s => h a = some s) as ss := by
  obtain ⟨ss, h1, h2, h3, h4⟩ := states_of ht
  have hlen := ht.length_eq
  have hb : ∃ f, build k as = some f := by
    cases k <;> simp only [Kind.types, List.length_cons, List.length_nil] at hlen
    · match as, hlen with
      | [a, b, c, d], _ => exact ⟨_, rfl⟩
    · match as, hlen with
      | [a, b], _ => exact ⟨_, rfl⟩
    · match as, hlen with
      | [a, b, c, d, e], _ => exact ⟨_, rfl⟩
    · match as, hlen with
      | [a, b, c, d, e, f, g], _ => exact ⟨_, rfl⟩
  obtain ⟨f, hf⟩ := hb
  obtain ⟨e1, e2⟩ := build_eq hf
  refine ⟨f, ss, hf, e2, ?_, h2, h3, h4⟩
  rw [Factor.states, e1, (C139_collection as).1, Option.bind_some, h1]

/-! ## Factors and models -/

/-- What the models read, by sizes. -/
theorem C139_expects (rel : RelObj) (pr : PrObj) (dyn : DynObj) (p8 : Fin 8 → ℕ) (p6 : Fin 6 → ℕ) (p5 : Fin 5 → ℕ)
    (p4 : Fin 4 → ℕ) :
    (imuIns p5).map Seg.n = (expects .imu).map Cls.DIM ∧
    (relIns rel p8).tail.map Seg.n = (expects .carrier).map Cls.DIM ∧
    (prIns pr p6).tail.map Seg.n = (expects .gnss).map Cls.DIM ∧
    (dynIns dyn p4).tail.map Seg.n = (expects .switch).map Cls.DIM :=
  ⟨rfl, rfl, rfl, rfl⟩

/-- **C139**: `ImuModel`, given the blocks of the states of a factor `Imu` in their order, reads these blocks and no other numbers,
and writes the residual of their values. -/
theorem C139_imu (h : Heap) (as : List ℕ) (ht : Typed h (Kind.imu).types as) (q : Pre) (L : ImuX → M3) (res : ℕ) (m : Mem)
    (x : ImuX) :
    ∃ f ss, build .imu as = some f ∧ f.states h = some ss ∧
      ∀ p : Fin 5 → ℕ, (∀ i : Fin 5, (ss.map StateObj.data)[i.val]? = some (p i)) →
        imuIns p = ss.map block ∧
        (imuRead p m = some x → Ready m (ss.map block) (blocks ⟨res, 9⟩ none [72, 72, 27, 27, 54]) →
          ∃ m', imuEvaluate q L p res none m = some m' ∧
            RowMajor m' res (col fun i => (q.residual x.start x.fin x.v x.v' x.b).toVec (pair i))) := by
  obtain ⟨f, ss, h1, -, h3, h4, -, h6⟩ := C139_factor h .imu as ht
  refine ⟨f, ss, h1, h3, fun p hp => ?_⟩
  have hins : imuIns p = ss.map block := by
    have hl : ss.length = 5 := by
      have := congrArg List.length h4
      simpa [Kind.types] using this
    match ss, hl with
    | [a, b, c, d, e], _ =>
      simp only [List.map_cons, List.map_nil, Kind.types, Cls.DIM, List.cons.injEq, and_true] at h4
      obtain ⟨d0, d1, d2, d3, d4⟩ := h4
      have p0 := hp 0
      have p1 := hp 1
      have p2 := hp 2
      have p3 := hp 3
      have p4 := hp 4
      simp at p0 p1 p2 p3 p4
      simp [imuIns, block, d0, d1, d2, d3, d4, p0, p1, p2, p3, p4]
  refine ⟨hins, fun hx hr => ?_⟩
  obtain ⟨m', e1, e2, -⟩ := C138_imu q L p res none m x hx (hins ▸ hr)
  exact ⟨m', e1, e2⟩

/-- **C139** is violated: the states of the other factors are not the blocks their models read.  Some are missing, and no order of
them would do. -/
theorem C139_models_violated :
    (∀ k, k.types.map Cls.DIM = (expects k).map Cls.DIM ↔ k = .imu) ∧
      ∀ k : Kind, k ≠ .imu → k.types.length < (expects k).length ∧ ¬ (expects k).Subperm k.types := by
  refine ⟨fun k => by cases k <;> simp [Kind.types, expects, Cls.DIM], fun k hk => ?_⟩
  have hlen : k.types.length < (expects k).length := by cases k <;> simp_all [Kind.types, expects]
  exact ⟨hlen, fun hs => absurd hs.length_le (by omega)⟩

/-- With the first states in their order `RelativeCarrierPhase` would take the position of the antenna for the first clock. -/
theorem C139_order_violated : (Kind.carrier).types[2]? = some .antenna ∧ (expects .carrier)[2]? = some .clock ∧
    (Kind.carrier).types[6]? = some .switch ∧ (expects .carrier)[6]? = some .pose ∧ (Kind.carrier).types[7]? = none ∧
    (expects .carrier)[7]? = some .antenna := ⟨rfl, rfl, rfl, rfl, rfl, rfl⟩

/-- **C139** is violated: the factors of a state.  A state that has been made knows none, and no constructor of a factor tells
it: the states are what they were. -/
theorem C139_links_violated (c : Cls) (ptr a : ℕ) (h : Heap) (ha : h a = some (.new c ptr)) (k : Kind) (as : List ℕ)
    (ht : Typed h k.types as) (hm : a ∈ as) :
    ∃ f ss, build k as = some f ∧ f.states h = some ss ∧ StateObj.new c ptr ∈ ss ∧
      (StateObj.new c ptr).baseItems = [] := by
  obtain ⟨f, ss, h1, -, h3, -, -, h6⟩ := C139_factor h k as ht
  refine ⟨f, ss, h1, h3, ?_, rfl⟩
  clear h1 h3 ht
  induction h6 with
  | nil => simp at hm
  | cons hx _ ih =>
    rcases List.mem_cons.1 hm with rfl | hm
    · rw [ha, Option.some.injEq] at hx
      rw [hx]; exact List.mem_cons_self
    · exact List.mem_cons_of_mem _ (ih hm)

/-- A factor keeps references: without one of its states nothing can be shown to a solver. -/
theorem C139_gone_violated (h : Heap) (k : Kind) (as : List ℕ) (f : Factor) (hf : build k as = some f) (a : ℕ) (ha : a ∈ as)
    (hg : h a = none) : f.states h = none := by
  rw [Factor.states, (build_eq hf).1, (C139_collection as).1, Option.bind_some]
  clear hf
  induction as with
  | nil => simp at ha
  | cons b as ih =>
    rcases List.mem_cons.1 ha with rfl | ha
    · simp [List.mapM_cons, hg]
    · simp only [List.mapM_cons, ih ha]
      cases h b <;> rfl

/-! ## The graph -/

theorem setBack_spec (r : CB.Ring Node) (n : Node) (f : Node → Node) (hb : back maxLen r = some n)
    (hl : r.live (minus maxLen r.tail 1) = true) :
    back maxLen (setBack r f) = some (f n) ∧ (setBack r f).live = r.live ∧ (setBack r f).tail = r.tail ∧
      (setBack r f).head = r.head ∧ (setBack r f).faults = r.faults := by
  unfold setBack
  rw [hb]
  simp [back, CB.assign, hl]

theorem fillSw_spec (is : List (Fin 30)) : ∀ (r : CB.Ring Node) (n : Node), back maxLen r = some n →
    r.live (minus maxLen r.tail 1) = true →
    back maxLen (fillSw r is) = some { n with sw := fun j => if j ∈ is then 1 else n.sw j } ∧
      (fillSw r is).tail = r.tail ∧ (fillSw r is).head = r.head ∧ (fillSw r is).faults = r.faults := by
  induction is with
  | nil => intro r n hb hl; exact ⟨by simp [fillSw, hb], rfl, rfl, rfl⟩
  | cons i is ih =>
    intro r n hb hl
    obtain ⟨h1, h2, h3, h4, h5⟩ := setBack_spec r n (fun n => { n with sw := fun j => if j = i then 1 else n.sw j }) hb hl
    obtain ⟨k1, k2, k3, k4⟩ := ih _ _ h1 (by rw [h2, h3]; exact hl)
    refine ⟨?_, k2.trans h3, k3.trans h4, k4.trans h5⟩
    rw [fillSw, k1]
    simp only [Option.some.injEq, Node.mk.injEq, true_and]
    funext j
    by_cases hj : j ∈ is
    · simp [hj]
    · simp [hj]

/-- **C139**: a new graph has one node, with the state of the options and all switches on, whatever was in its memory; the other
estimates are those of the options. -/
theorem C139_graph (o : Options) (g : Node) :
    (FactorGraph.new o g).lastNode = some ⟨o.t0, o.x0, o.vel0, o.clk0, fun _ => 1⟩ ∧
      CB.size maxLen (FactorGraph.new o g).nodes = 1 ∧ (FactorGraph.new o g).nodes.faults = 0 ∧
      (FactorGraph.new o g).p_b2g = o.p_b2g0 ∧ (FactorGraph.new o g).imuBias = o.imuBias0 ∧
      (FactorGraph.new o g).T_r2n = o.T_r2n0 ∧ (FactorGraph.new o g).options = o := by
  have hb : back maxLen (emplaceBack maxLen init g) = some g := by
    simp [back, emplaceBack, full, plus, init, construct, inc, minus, maxLen]
  have hl : (emplaceBack maxLen (init : CB.Ring Node) g).live (minus maxLen (emplaceBack maxLen (init : CB.Ring Node) g).tail 1) =
      true := by
    simp [emplaceBack, full, plus, init, construct, inc, minus, maxLen]
  have ht : (emplaceBack maxLen (init : CB.Ring Node) g).tail = 1 := by
    simp [emplaceBack, full, plus, init, construct, inc, maxLen]
  have hh : (emplaceBack maxLen (init : CB.Ring Node) g).head = 0 := by
    simp [emplaceBack, full, plus, init, construct, maxLen]
  have hf : (emplaceBack maxLen (init : CB.Ring Node) g).faults = 0 := by
    simp [emplaceBack, full, plus, init, construct, maxLen]
  obtain ⟨a1, a2, a3, a4, a5⟩ := setBack_spec _ _ (fun n => { n with t := o.t0 }) hb hl
  obtain ⟨b1, b2, b3, b4, b5⟩ := setBack_spec _ _ (fun n => { n with T_n2b := o.x0 }) a1 (by rw [a2, a3]; exact hl)
  obtain ⟨c1, c2, c3, c4, c5⟩ := setBack_spec _ _ (fun n => { n with vel := o.vel0 }) b1 (by rw [b2, b3, a2, a3]; exact hl)
  obtain ⟨d1, d2, d3, d4, d5⟩ := setBack_spec _ _ (fun n => { n with clk := o.clk0 }) c1
    (by rw [c2, c3, b2, b3, a2, a3]; exact hl)
  obtain ⟨e1, e2, e3, e4⟩ := fillSw_spec (List.finRange 30) _ _ d1 (by rw [d2, d3, c2, c3, b2, b3, a2, a3]; exact hl)
  refine ⟨?_, ?_, ?_, rfl, rfl, rfl, rfl⟩
  · rw [FactorGraph.lastNode, FactorGraph.new, e1]
    simp
  · unfold CB.size CB.idx FactorGraph.new
    simp only
    rw [e2, e3, d3, d4, c3, c4, b3, b4, a3, a4, ht, hh]
    simp [plus, maxLen, toSizeT]
  · unfold FactorGraph.new
    simp only
    rw [e4, d5, c5, b5, a5, hf]

/-- The whole of **C139**: every factor has the states its model reads. -/
def C139_statement : Prop := ∀ k, k.types = expects k

theorem C139_statement_false : ¬ C139_statement := fun h => absurd (h .gnss) (by decide)

/-- Two poses, two velocities and a bias. -/
def sampleHeap : Heap := fun a =>
  [StateObj.new .pose 100, .new .pose 108, .new .velocity 116, .new .velocity 119, .new .bias 122][a]?

example : Typed sampleHeap (Kind.imu).types [0, 1, 2, 3, 4] := by
  refine .cons ?_ (.cons ?_ (.cons ?_ (.cons ?_ (.cons ?_ .nil)))) <;> exact ⟨_, rfl, rfl, rfl, rfl⟩

end Verif.Props.Graph
