import Verif.Lemmas.LogStream
import Verif.Model.Streams
import Verif.Props.LogFormat

/-!
# C126: streams hold what their headers announce and readers read what was written

All streams but the estimates of the post-processor are written with the types of their headers; the
estimates carry a covariance that is not announced, so that Python reads covariances as estimates.
-/
namespace Verif.Props.Streams
open Verif.Log Verif.Log.Spec Verif.Log.Streams Verif.Props.LogFormat

/-! ## The calls -/

/-- Every call of `log` but the one for the estimates has the types of the one `initStream` for its
key in its program, and every call that reads a record but the one for the truth has the types of
every `initStream` for its key. -/
theorem C126_sites :
    (∀ s ∈ logSites, (s.program, s.line) ≠ (.postProcess, 223) →
      ∃ i ∈ initSites, i.program = s.program ∧ i.key = s.key ∧ i.types = s.types) ∧
    (∀ i ∈ initSites, ∀ j ∈ initSites, i.program = j.program → i.key = j.key → i = j) ∧
    (∀ s ∈ readSites, (s.program, s.line) ≠ (.postProcess, 76) →
      (∃ i ∈ initSites, i.key = s.key) ∧ ∀ i ∈ initSites, i.key = s.key → i.types = s.types) := by
  decide +kernel

/-- The two exceptions: nine values for eight types, and two types for three values. -/
theorem C126_sites_violated :
    (∃ s ∈ logSites, ∃ i ∈ initSites, i.program = s.program ∧ i.key = s.key ∧
      s.types = i.types ++ [.covariance]) ∧
    (∃ s ∈ readSites, ∃ i ∈ initSites, i.key = s.key ∧ i.types = s.types ++ [.vec 2]) := by
  decide +kernel

/-! ## Streams with right headers -/

/-- rtk_ekf_estimator.cxx 41-42. -/
def pointPosStream : List VCol :=
  [{ name := "res", α := Vector F64 6 }, { name := "z", α := Vector F64 6 },
   { name := "zhat", α := Vector F64 6 }]

/-- rtk_ekf_estimator.cxx 43-45. -/
def fixAndHoldStream : List VCol :=
  [{ name := "res", α := Vector F64 30 }, { name := "z", α := Vector F64 30 },
   { name := "zhat", α := Vector F64 30 }]

/-- post_process.cxx 209-211. -/
def estimateStream : List VCol :=
  [{ name := "pose", α := Pose }, { name := "vel", α := Vector F64 3 },
   { name := "omg", α := Vector F64 3 }, { name := "acc", α := Vector F64 3 },
   { name := "p_ecef", α := Vector F64 3 }, { name := "gps_clk", α := Vector F64 2 },
   { name := "gal_clk", α := Vector F64 2 }, { name := "glo_clk", α := Vector F64 2 }]

theorem estimate_cols : cols estimateStream = estimateCols := rfl

theorem estimate_described : AllDescribed estimateStream := by
  intro v hv
  simp only [estimateStream, List.mem_cons, List.not_mem_nil, or_false] at hv
  rcases hv with rfl | rfl | rfl | rfl | rfl | rfl | rfl | rfl
  · exact described_pose
  all_goals exact ⟨_, described_vector ok_f64 _⟩

/-- The residuals of the position and of the fixed ambiguities are read back, and so would be the
estimates without their covariance. -/
theorem C126_streams :
    ReadsBack pointPosStream ∧ ReadsBack fixAndHoldStream ∧ ReadsBack estimateStream := by
  refine ⟨?_, ?_, ?_⟩
  · refine C110_reads_back_partial _ (by simp [pointPosStream])
      (by simp [pointPosStream, cols, GoodNames]) (by simp [pointPosStream, cols]) ?_
    intro v hv
    simp only [pointPosStream, List.mem_cons, List.not_mem_nil, or_false] at hv
    rcases hv with rfl | rfl | rfl
    all_goals exact ⟨_, described_vector ok_f64 _⟩
  · refine C110_reads_back_partial _ (by simp [fixAndHoldStream])
      (by simp [fixAndHoldStream, cols, GoodNames]) (by simp [fixAndHoldStream, cols]) ?_
    intro v hv
    simp only [fixAndHoldStream, List.mem_cons, List.not_mem_nil, or_false] at hv
    rcases hv with rfl | rfl | rfl
    all_goals exact ⟨_, described_vector ok_f64 _⟩
  · exact C110_reads_back_partial _ (by simp [estimateStream])
      (by simp [estimateStream, cols, GoodNames]) (by simp [estimateStream, cols])
      estimate_described

/-! ## The estimates -/

theorem dtype_good (vs : List VCol) (hne : vs ≠ [])
    (hn : GoodNames ((cols vs).map Col.name))
    (hr : ∀ q ∈ ["type", "rows", "cols"], q ∉ (cols vs).map Col.name) (hd : AllDescribed vs) :
    ∃ d : DType, (∀ bytes, pyLoad (cols vs) bytes = some (fromfile d bytes)) ∧
      ∀ r : Stamp × Row (cols vs), (Codec.enc r.1 ++ rowEnc (cols vs) r.2).length = d.size ∧
        d.read [] (Codec.enc r.1 ++ rowEnc (cols vs) r.2) = recordView vs r := by
  obtain ⟨ds, hs⟩ := described_stamp
  obtain ⟨fs, h1, h2⟩ := cols_fields vs hd
  have hdt : makeDtype (.map (.cons "t" (Header.fmt Stamp) (colEntries (cols vs)))) =
      some (.struct (.cons "t" ds fs)) := by
    refine makeDtype_struct ⟨?_, ?_, ?_, ?_⟩ (by simp [makeFields, hs.dt, h1])
    · simp [Entries.get, get_colEntries_none (cols vs) "cols" (hr _ (by simp))]
    · simp [Entries.get, get_colEntries_none (cols vs) "rows" (hr _ (by simp))]
    · simp [Entries.get, get_colEntries_none (cols vs) "type" (hr _ (by simp))]
    · rw [Entries.length, length_colEntries, cols, List.length_map]
      have := List.length_pos_iff.2 hne
      omega
  refine ⟨.struct (.cons "t" ds fs), fun bytes => ?_, fun r => ⟨?_, ?_⟩⟩
  · simp only [pyLoad, makeFormat_good (cols vs) hn]
    simp [hdt]
  · rw [List.length_append, hs.len, (h2 r.2).1]; rfl
  · show ds.read ([] ++ ["t"]) ((Codec.enc r.1 ++ rowEnc (cols vs) r.2).take ds.size) ++
      fs.read [] ((Codec.enc r.1 ++ rowEnc (cols vs) r.2).drop ds.size) = _
    rw [← hs.len r.1, List.take_left, List.drop_left, (h2 r.2).2]
    exact congrArg (· ++ rowView vs r.2) (hs.read ["t"] r.1)

/-- A record of the estimates without its covariance has 216 bytes. -/
theorem estimate_length (r : Stamp × Row estimateCols) :
    (Codec.enc r.1 ++ rowEnc estimateCols r.2).length = 216 := by
  have hp : ∀ x : Pose, (Codec.enc x).length = 56 := (Lawful.laws (α := Pose)).len
  have h3 : ∀ x : Vector F64 3, (Codec.enc x).length = 24 := (Lawful.laws (α := Vector F64 3)).len
  have h2 : ∀ x : Vector F64 2, (Codec.enc x).length = 16 := (Lawful.laws (α := Vector F64 2)).len
  have ht : (Codec.enc r.1).length = 16 := stamp_laws.len r.1
  obtain ⟨t, a, b, c, d, e, f, g, h, u⟩ := r
  show (_ ++ (Codec.enc a ++ (Codec.enc b ++ (Codec.enc c ++ (Codec.enc d ++ (Codec.enc e ++
    (Codec.enc f ++ (Codec.enc g ++ (Codec.enc h ++ []))))))))).length = 216
  simp only [List.length_append, hp, h3, h2, ht, List.length_nil]

theorem estimateFile_length (k : Nat) (rs : List (Stamp × Row estimateCols × List UInt8))
    (hk : ∀ r ∈ rs, r.2.2.length = k) : (estimateFile rs).length = rs.length * (216 + k) := by
  induction rs with
  | nil => simp [estimateFile, extraFile]
  | cons r rs ih =>
    have e : estimateFile (r :: rs) =
        (Codec.enc r.1 ++ rowEnc estimateCols r.2.1) ++ r.2.2 ++ estimateFile rs := by
      simp [estimateFile, extraFile]
    rw [e, List.length_append, List.length_append, estimate_length (r.1, r.2.1), hk r (by simp),
      ih (fun x hx => hk x (List.mem_cons_of_mem _ hx)), List.length_cons, Nat.add_mul,
      Nat.one_mul, Nat.add_comm]

/-- What Python makes of the file of the estimates: the first estimate is right; of `n` records with
covariances of `k` bytes it makes `n + n * k / 216`. -/
theorem C126_estimate (k : Nat) (r : Stamp × Row estimateCols × List UInt8)
    (rs : List (Stamp × Row estimateCols × List UInt8))
    (hk : ∀ x ∈ r :: rs, x.2.2.length = k) :
    ∃ out, pyLoad estimateCols (estimateFile (r :: rs)) =
        some (recordView estimateStream (r.1, r.2.1) :: out) ∧
      (out.length + 1 = (rs.length + 1) + (rs.length + 1) * k / 216) := by
  obtain ⟨d, h1, h2⟩ := dtype_good estimateStream (by simp [estimateStream])
    (by simp [estimateStream, cols, GoodNames]) (by simp [estimateStream, cols])
    estimate_described
  have hsz : d.size = 216 := by
    rw [← (h2 (r.1, r.2.1)).1]; exact estimate_length (r.1, r.2.1)
  have hl := estimateFile_length k (r :: rs) hk
  have hq : (estimateFile (r :: rs)).length / 216 =
      ((rs.length + 1) + (rs.length + 1) * k / 216 - 1) + 1 := by
    rw [hl, List.length_cons, Nat.mul_add, Nat.add_comm, Nat.add_mul_div_right _ _ (by norm_num)]
    omega
  have e : estimateFile (r :: rs) =
      (Codec.enc r.1 ++ rowEnc estimateCols r.2.1) ++ (r.2.2 ++ estimateFile rs) := by
    simp [estimateFile, extraFile]
  have hfirst : d.read [] (((estimateFile (r :: rs)).drop (0 * d.size)).take d.size) =
      recordView estimateStream (r.1, r.2.1) := by
    rw [Nat.zero_mul, List.drop_zero, e, hsz, ← estimate_length (r.1, r.2.1), List.take_left]
    exact (h2 (r.1, r.2.1)).2
  refine ⟨(List.range ((rs.length + 1) + (rs.length + 1) * k / 216 - 1)).map (fun j =>
    d.read [] (((estimateFile (r :: rs)).drop ((j + 1) * d.size)).take d.size)), ?_, ?_⟩
  · have := h1 (estimateFile (r :: rs))
    rw [estimate_cols] at this
    rw [this, fromfile]
    conv_lhs => rw [hsz]
    rw [hq, List.range_succ_eq_map, List.map_cons, List.map_map]
    rw [hsz] at hfirst
    rw [hfirst, hsz]
    rfl
  · simp only [List.length_map, List.length_range]
    omega

/-- With a covariance of at least 216 bytes (its 60 diagonal entries have 480) the file is never
read back, whatever is in it. -/
theorem C126_estimate_violated (k : Nat) (hk : 216 ≤ k)
    (rs : List (Stamp × Row estimateCols × List UInt8)) (hne : rs ≠ [])
    (hl : ∀ x ∈ rs, x.2.2.length = k) :
    pyLoad estimateCols (estimateFile rs) ≠
      some (rs.map fun r => recordView estimateStream (r.1, r.2.1)) := by
  obtain ⟨r, rs, rfl⟩ := List.exists_cons_of_ne_nil hne
  obtain ⟨out, h1, h2⟩ := C126_estimate k r rs hl
  rw [h1]
  intro h
  have h3 := congrArg List.length (Option.some.inj h)
  simp only [List.length_cons, List.length_map] at h3
  have h4 : 1 ≤ (rs.length + 1) * k / 216 := by
    rw [Nat.le_div_iff_mul_le (by norm_num)]
    nlinarith
  omega

/-- The second "estimate" is made of the covariance of the first record: two logs whose first
covariances agree give the same second estimate, whatever else was logged. -/
theorem C126_second_violated (c c' : List UInt8) (hc : 216 ≤ c.length) (hcc : c.take 216 = c'.take 216)
    (r r' : Stamp × Row estimateCols) (rs rs' : List (Stamp × Row estimateCols × List UInt8)) :
    ∃ out out' x, pyLoad estimateCols (estimateFile ((r.1, r.2, c) :: rs)) = some out ∧
      pyLoad estimateCols (estimateFile ((r'.1, r'.2, c') :: rs')) = some out' ∧
      out[1]? = some x ∧ out'[1]? = some x := by
  obtain ⟨d, h1, h2⟩ := dtype_good estimateStream (by simp [estimateStream])
    (by simp [estimateStream, cols, GoodNames]) (by simp [estimateStream, cols])
    estimate_described
  have hsz : d.size = 216 := by
    rw [← (h2 r).1]; exact estimate_length r
  have hc' : 216 ≤ c'.length := by
    have := congrArg List.length hcc
    simp only [List.length_take] at this
    omega
  have key : ∀ (q : Stamp × Row estimateCols) (w : List UInt8)
      (ws : List (Stamp × Row estimateCols × List UInt8)), 216 ≤ w.length →
      (fromfile d (estimateFile ((q.1, q.2, w) :: ws)))[1]? = some (d.read [] (w.take 216)) := by
    intro q w ws hw
    have e : estimateFile ((q.1, q.2, w) :: ws) =
        (Codec.enc q.1 ++ rowEnc estimateCols q.2) ++ (w ++ estimateFile ws) := by
      simp [estimateFile, extraFile]
    have hlen : 2 ≤ (estimateFile ((q.1, q.2, w) :: ws)).length / 216 := by
      rw [Nat.le_div_iff_mul_le (by norm_num), e, List.length_append, estimate_length q,
        List.length_append]
      omega
    rw [fromfile, hsz, List.getElem?_map, List.getElem?_range (by omega), Option.map_some, Nat.one_mul, e]
    conv_lhs => rw [← estimate_length q, List.drop_left, estimate_length q]
    rw [List.take_append, Nat.sub_eq_zero_of_le hw, List.take_zero, List.append_nil]
  have a1 := h1 (estimateFile ((r.1, r.2, c) :: rs))
  have a2 := h1 (estimateFile ((r'.1, r'.2, c') :: rs'))
  rw [estimate_cols] at a1 a2
  refine ⟨_, _, d.read [] (c.take 216), a1, a2, key r c rs hc, ?_⟩
  rw [hcc]
  exact key r' c' rs' hc'

/-- The claim for the estimates. -/
def C126_statement : Prop :=
  ∀ k, ∀ rs : List (Stamp × Row estimateCols × List UInt8), (∀ x ∈ rs, x.2.2.length = k) →
    pyLoad estimateCols (estimateFile rs) =
      some (rs.map fun r => recordView estimateStream (r.1, r.2.1))

/-- An estimate. -/
def someEstimate : Stamp × Row estimateCols :=
  (⟨5, 6⟩, (⟨⟨#v[⟨1⟩, ⟨2⟩, ⟨3⟩, ⟨4⟩]⟩, #v[⟨5⟩, ⟨6⟩, ⟨7⟩]⟩, #v[⟨1⟩, ⟨1⟩, ⟨1⟩], #v[⟨1⟩, ⟨1⟩, ⟨1⟩],
    #v[⟨1⟩, ⟨1⟩, ⟨1⟩], #v[⟨1⟩, ⟨1⟩, ⟨1⟩], #v[⟨1⟩, ⟨1⟩], #v[⟨1⟩, ⟨1⟩], #v[⟨1⟩, ⟨1⟩], ()))

theorem C126_statement_false : ¬ C126_statement := by
  intro h
  have hl : ∀ x ∈ [(someEstimate.1, someEstimate.2, List.replicate 480 (0 : UInt8))],
      x.2.2.length = 480 := by
    intro x hx
    rw [List.mem_singleton.1 hx]
    exact List.length_replicate
  exact C126_estimate_violated 480 (by norm_num) _ (List.cons_ne_nil _ _) hl (h 480 _ hl)

/-! ## The truth -/

theorem f64_int64 (x y : F64) : Codec.enc (#v[x, y] : Vector F64 2) =
    Codec.enc (Stamp.mk (Int64.ofUInt64 x.bits) (Int64.ofUInt64 y.bits)) := by
  show Raw.toBytes x ++ (Raw.toBytes y ++ []) = Raw.toBytes _ ++ (Raw.toBytes _ ++ [])
  rfl

/-- The first `getNext<TwoJet, DQuat>` gives the stamp, the pose and the transform of the first
record of the truth, whatever follows. -/
theorem C126_truth (init : Stamp) (old : TwoJet × Pose) (r : Stamp × Truth) (rs : List (Stamp × Truth)) :
    (getTruth old (Reader.open init (logFile (r :: rs)))).1 = (r.1, r.2.1, r.2.2.1) := by
  have hf : logFile (r :: rs) =
      Codec.enc r.1 ++ (Codec.enc (r.2.1, r.2.2.1) ++ (Codec.enc r.2.2.2 ++ logFile rs)) := by
    show (Codec.enc r.1 ++ (Codec.enc r.2.1 ++ (Codec.enc r.2.2.1 ++ Codec.enc r.2.2.2))) ++ _ =
      Codec.enc r.1 ++ ((Codec.enc r.2.1 ++ Codec.enc r.2.2.1) ++ (Codec.enc r.2.2.2 ++ logFile rs))
    simp only [List.append_assoc]
    rfl
  unfold getTruth Reader.open
  rw [hf, IStream.ofBytes, readStamp_full]
  simp only [Reader.get]
  rw [(Lawful.laws (α := TwoJet × Pose)).rt]

/-- After it the reader takes the clock for the stamp of the next record. -/
theorem C126_truth_violated (init : Stamp) (old : TwoJet × Pose) (t : Stamp) (x : TwoJet) (p : Pose)
    (a b : F64) (rs : List (Stamp × Truth)) :
    (getTruth old (Reader.open init (logFile ((t, x, p, #v[a, b]) :: rs)))).2.next =
      ⟨Int64.ofUInt64 a.bits, Int64.ofUInt64 b.bits⟩ := by
  have hf : logFile (((t, x, p, #v[a, b]) : Stamp × Truth) :: rs) =
      Codec.enc t ++ (Codec.enc (x, p) ++
        (Codec.enc (Stamp.mk (Int64.ofUInt64 a.bits) (Int64.ofUInt64 b.bits)) ++ logFile rs)) := by
    rw [← f64_int64]
    show (Codec.enc t ++ (Codec.enc x ++ (Codec.enc p ++ Codec.enc (#v[a, b] : Vector F64 2)))) ++ _ =
      Codec.enc t ++ ((Codec.enc x ++ Codec.enc p) ++
        (Codec.enc (#v[a, b] : Vector F64 2) ++ logFile rs))
    simp only [List.append_assoc]
    rfl
  unfold getTruth Reader.open
  rw [hf, IStream.ofBytes, readStamp_full]
  simp only [Reader.get]
  rw [(Lawful.laws (α := TwoJet × Pose)).rt]
  simp only
  rw [readStamp_full]

/-! ## The residuals -/

/-- Satellites of different systems with the same number cannot be told apart in the log. -/
theorem C126_residuals_violated {V : Type} (sub : V → V → V) (g g' n : UInt8) (z r : V) :
    logResiduals sub [(g, n, z, r)] = logResiduals sub [(g', n, z, r)] ∧
      ∀ b, ∀ x ∈ logResiduals sub b, x.1 = .gpsObsResidual := by
  refine ⟨rfl, fun b x hx => ?_⟩
  simp only [logResiduals, List.mem_map] at hx
  obtain ⟨o, _, rfl⟩ := hx
  rfl

/-- One record for each observation, with its number, its value, its residual and the difference. -/
theorem C126_residuals {V : Type} (sub : V → V → V) (b : List (UInt8 × UInt8 × V × V)) :
    (logResiduals sub b).length = b.length ∧
      ∀ (i : Nat) (g n : UInt8) (z r : V), b[i]? = some (g, n, z, r) → ∃ id : Int32, id.toInt = (n.toNat : Int) ∧
        (logResiduals sub b)[i]? = some (.gpsObsResidual, ⟨id, r, z, sub z r⟩) := by
  refine ⟨by simp [logResiduals], fun i g n z r h => ⟨Int32.ofNat n.toNat, ?_, ?_⟩⟩
  · have hlt : n.toNat < 256 := n.toNat_lt
    rw [Int32.toInt_ofNat', show Int32.size = 4294967296 from rfl, Int.bmod_def]
    split <;> omega
  · simp [logResiduals, h]

/-! ## Python -/

theorem findKeys_sep (sep cs : List Char) (hs : ∀ c ∈ sep, keyChar c = false) :
    findKeys [] (sep ++ cs) = findKeys [] cs := by
  induction sep with
  | nil => rfl
  | cons a sep ih =>
    rw [List.cons_append, findKeys, hs a (by simp)]
    simp [ih (fun c hc => hs c (List.mem_cons_of_mem _ hc))]

theorem findKeys_name (w name cs : List Char) (hn : ∀ c ∈ name, keyChar c = true) :
    findKeys w (name ++ cs) = findKeys (w ++ name) cs := by
  induction name generalizing w with
  | nil => simp
  | cons a name ih =>
    rw [List.cons_append, findKeys, hn a (by simp)]
    simp [ih (w ++ [a]) (fun c hc => hn c (List.mem_cons_of_mem _ hc))]

/-- An enumeration: names, each followed by separators. -/
def enumeration (lead : List Char) (es : List (List Char × List Char)) : List Char :=
  lead ++ es.flatMap fun e => e.1 ++ e.2

theorem findKeys_enum (es : List (List Char × List Char))
    (hn : ∀ e ∈ es, e.1 ≠ [] ∧ ∀ c ∈ e.1, keyChar c = true)
    (hs : ∀ e ∈ es, e.2 ≠ [] ∧ ∀ c ∈ e.2, keyChar c = false) :
    findKeys [] (es.flatMap fun e => e.1 ++ e.2) = es.map (·.1) := by
  induction es with
  | nil => rfl
  | cons e es ih =>
    obtain ⟨n, s⟩ := e
    obtain ⟨hn1, hn2⟩ := hn (n, s) (by simp)
    obtain ⟨hs1, hs2⟩ := hs (n, s) (by simp)
    simp only at hn1 hn2 hs1 hs2
    rw [List.flatMap_cons, List.append_assoc, findKeys_name _ _ _ hn2, List.nil_append]
    obtain ⟨a, s, rfl⟩ := List.exists_cons_of_ne_nil hs1
    rw [List.cons_append, findKeys, hs2 a (by simp)]
    simp only [Bool.false_eq_true, if_false, if_neg hn1, List.map_cons]
    rw [findKeys_sep _ _ (fun c hc => hs2 c (List.mem_cons_of_mem _ hc)),
      ih (fun e he => hn e (List.mem_cons_of_mem _ he)) (fun e he => hs e (List.mem_cons_of_mem _ he))]

theorem keyDict_none (ks : List (List Char)) (i : Nat) (q : List Char) (h : q ∉ ks) :
    keyDict i ks q = none := by
  induction ks generalizing i with
  | nil => rfl
  | cons k ks ih =>
    simp only [List.mem_cons, not_or] at h
    rw [keyDict, ih (i + 1) h.2]
    simp [Ne.symm h.1]

theorem keyDict_get (ks : List (List Char)) (hnd : ks.Nodup) (i j : Nat) (h : j < ks.length) :
    keyDict i ks ks[j] = some (i + j) := by
  induction ks generalizing i j with
  | nil => simp at h
  | cons k ks ih =>
    rw [List.nodup_cons] at hnd
    rw [keyDict]
    cases j with
    | zero =>
      simp only [List.getElem_cons_zero, keyDict_none ks (i + 1) k hnd.1]
      simp
    | succ j =>
      simp only [List.getElem_cons_succ]
      rw [ih hnd.2 (i + 1) j (by simpa using h)]
      simp only [Option.some.injEq]
      omega

/-- Python finds the enumerators of any enumeration of different names of capital letters, digits
and underscores, with anything else between them, and numbers them by their position. -/
theorem C126_keys (lead : List Char) (es : List (List Char × List Char))
    (hl : ∀ c ∈ lead, keyChar c = false)
    (hn : ∀ e ∈ es, e.1 ≠ [] ∧ ∀ c ∈ e.1, keyChar c = true)
    (hs : ∀ e ∈ es, e.2 ≠ [] ∧ ∀ c ∈ e.2, keyChar c = false)
    (hnd : (es.map (·.1)).Nodup) (i : Nat) (hi : i < es.length) :
    keyDict 0 (findKeys [] (enumeration lead es)) es[i].1 = some i := by
  have := keyDict_get (es.map (·.1)) hnd 0 i (by simpa using hi)
  rw [List.getElem_map, Nat.zero_add] at this
  rw [enumeration, findKeys_sep _ _ hl, findKeys_enum es hn hs, this]

/-- The names of log_key.h. -/
def keyNames : List (Key × String) :=
  [(.imuSample, "IMU_SAMPLE"), (.gnssObs, "GNSS_OBS"), (.gpsEph, "GPS_EPH"), (.galEph, "GAL_EPH"),
   (.gloEph, "GLO_EPH"), (.truthPose, "TRUTH_POSE"), (.gpsObsResidual, "GPS_OBS_RESIDUAL"),
   (.galObsResidual, "GAL_OBS_RESIDUAL"), (.gloObsResidual, "GLO_OBS_RESIDUAL"),
   (.pointPosResidual, "POINT_POS_RESIDUAL"), (.fixAndHoldResidual, "FIX_AND_HOLD_RESIDUAL"),
   (.estimate, "ESTIMATE")]

/-- The names in log_key.h get the values of the enumerators. -/
theorem C126_log_keys : ∀ k ∈ keyNames, logKeys k.2 = some k.1.value := by
  decide +kernel

theorem loaded_mem (chain : List Program) (k : Nat) (h : k ∈ loaded chain) :
    ∃ s ∈ initSites, s.key.value = k := by
  simp only [loaded, List.mem_flatMap, List.mem_map, List.mem_filter] at h
  obtain ⟨p, _, s, ⟨hs, _⟩, rfl⟩ := h
  exact ⟨s, hs, rfl⟩

theorem mapM_none {α β : Type} (f : α → Option β) (l : List α) (a : α) (ha : a ∈ l)
    (h : f a = none) : l.mapM f = none := by
  induction l with
  | nil => simp at ha
  | cons b l ih =>
    rw [List.mapM_cons]
    rcases List.mem_cons.1 ha with rfl | h'
    · rw [h]; rfl
    · rw [ih h']
      cases f b <;> rfl

/-- plot_post_process.py raises a `KeyError` on every log, whatever programs wrote it and the logs it
amends. -/
theorem C126_plot_violated (chain : List Program) : lookups chain plotNames = none := by
  refine mapM_none _ _ "GAL_OBS_RESIDUAL" (by decide) ?_
  have hk : logKeys "GAL_OBS_RESIDUAL" = some 7 := by decide +kernel
  simp only [hk]
  refine if_neg fun h => ?_
  obtain ⟨s, hs, he⟩ := loaded_mem chain 7 h
  revert s
  decide +kernel

/-- The first four of its six streams are there when the post-processor ran on a simulated log. -/
theorem C126_plot_partial (chain : List Program) (h1 : .simulate ∈ chain) (h2 : .postProcess ∈ chain) :
    lookups chain (plotNames.take 4) = some [11, 5, 0, 6] := by
  have hm : ∀ p k, p ∈ chain →
      (∃ s ∈ initSites, s.program = p ∧ s.key.value = k) → k ∈ loaded chain := by
    rintro p k hp ⟨s, hs, rfl, rfl⟩
    simp only [loaded, List.mem_flatMap, List.mem_map, List.mem_filter]
    exact ⟨_, hp, s, ⟨hs, by simp⟩, rfl⟩
  have a1 : 11 ∈ loaded chain := hm _ _ h2 (by decide +kernel)
  have a2 : 5 ∈ loaded chain := hm _ _ h1 (by decide +kernel)
  have a3 : 0 ∈ loaded chain := hm _ _ h1 (by decide +kernel)
  have a4 : 6 ∈ loaded chain := hm _ _ h2 (by decide +kernel)
  have k1 : logKeys "ESTIMATE" = some 11 := by decide +kernel
  have k2 : logKeys "TRUTH_POSE" = some 5 := by decide +kernel
  have k3 : logKeys "IMU_SAMPLE" = some 0 := by decide +kernel
  have k4 : logKeys "GPS_OBS_RESIDUAL" = some 6 := by decide +kernel
  simp [lookups, plotNames, k1, k2, k3, k4, a1, a2, a3, a4]

/-- The chain of a usual run. -/
example : lookups [.postProcess, .simulate, .gather] (plotNames.take 4) = some [11, 5, 0, 6] :=
  C126_plot_partial _ (by simp) (by simp)

end Verif.Props.Streams
