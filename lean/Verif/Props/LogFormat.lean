import Verif.Lemmas.LogFormat
/-!
# C110: the header of a log file describes its records
-/
namespace Verif.Props.LogFormat

open Verif.Log Verif.Log.Spec View Number

/-! ### Types whose header is right -/

theorem described_stamp : ∃ d, Described Stamp d :=
  ⟨_, described_struct
    (fieldsOk_cons "sec" (fun x : Stamp => x.sec) (described_num ok_i64)
      (fieldsOk_cons "nsec" (fun x : Stamp => x.nsec) (described_num ok_i64) fieldsOk_nil))
    (by simp [Entries.Plain, Entries.get, Entries.length])
    (by show mkMap _ = _; simp [mkMap, Entries.set])
    (fun _ => rfl) (fun _ _ => by show _ ++ _ = _; simp)⟩

theorem described_imu : ∃ d, Described ImuSample d := by
  obtain ⟨ds, hs⟩ := described_stamp
  exact ⟨_, described_struct
    (fieldsOk_cons "t" (fun x : ImuSample => x.t) hs
      (fieldsOk_cons "accel" (fun x : ImuSample => x.accel) (described_vector ok_f64 3)
        (fieldsOk_cons "gyro" (fun x : ImuSample => x.gyro) (described_vector ok_f64 3)
          fieldsOk_nil)))
    (by simp [Entries.Plain, Entries.get, Entries.length])
    (by show mkMap _ = _; simp [mkMap, Entries.set])
    (fun _ => rfl) (fun _ _ => by show _ ++ _ = _; simp)⟩

theorem described_obs : ∃ d, Described GnssObservation d := by
  obtain ⟨ds, hs⟩ := described_stamp
  exact ⟨_, described_struct
    (fieldsOk_cons "t" (fun x : GnssObservation => x.t) hs
      (fieldsOk_cons "gnss_id" (fun x : GnssObservation => x.gnss_id) (described_num ok_u8)
      (fieldsOk_cons "sat_num" (fun x : GnssObservation => x.sat_num) (described_num ok_u8)
      (fieldsOk_cons "freq" (fun x : GnssObservation => x.freq) (described_num ok_f64)
      (fieldsOk_cons "pseudorange" (fun x : GnssObservation => x.pseudorange)
        (described_num ok_f64)
      (fieldsOk_cons "doppler" (fun x : GnssObservation => x.doppler) (described_num ok_f64)
      (fieldsOk_cons "carrier_phase" (fun x : GnssObservation => x.carrier_phase)
        (described_num ok_f64) fieldsOk_nil)))))))
    (by simp [Entries.Plain, Entries.get, Entries.length])
    (by show mkMap _ = _; simp [mkMap, Entries.set])
    (fun _ => rfl) (fun _ _ => by show _ ++ _ = _; simp)⟩

theorem vec4_enc (v : Vector F64 4) : Codec.enc v =
    Codec.enc v[0] ++ (Codec.enc v[1] ++ (Codec.enc v[2] ++ (Codec.enc v[3] ++ []))) := by
  show v.toList.flatMap Raw.toBytes = _
  have : v.toList = [v[0], v[1], v[2], v[3]] := by
    apply List.ext_getElem (by simp)
    intro i h1 h2
    have : i < 4 := by simpa using h1
    obtain rfl | rfl | rfl | rfl : i = 0 ∨ i = 1 ∨ i = 2 ∨ i = 3 := by omega
    all_goals simp
  rw [this]; rfl

theorem vec6_enc (v : Vector F64 6) : Codec.enc v =
    Codec.enc #v[v[0], v[1], v[2]] ++ (Codec.enc #v[v[3], v[4], v[5]] ++ []) := by
  show v.toList.flatMap Raw.toBytes = _
  have : v.toList = [v[0], v[1], v[2], v[3], v[4], v[5]] := by
    apply List.ext_getElem (by simp)
    intro i h1 h2
    have : i < 6 := by simpa using h1
    obtain rfl | rfl | rfl | rfl | rfl | rfl : i = 0 ∨ i = 1 ∨ i = 2 ∨ i = 3 ∨ i = 4 ∨ i = 5 := by
      omega
    all_goals simp
  rw [this]; rfl

theorem described_quat : ∃ d, Described Quat d :=
  ⟨_, described_struct
    (fieldsOk_cons "w" (fun x : Quat => x.arr_[0]) (described_num ok_f64)
      (fieldsOk_cons "x" (fun x : Quat => x.arr_[1]) (described_num ok_f64)
      (fieldsOk_cons "y" (fun x : Quat => x.arr_[2]) (described_num ok_f64)
      (fieldsOk_cons "z" (fun x : Quat => x.arr_[3]) (described_num ok_f64) fieldsOk_nil))))
    (by simp [Entries.Plain, Entries.get, Entries.length])
    (by show mkMap _ = _; simp [mkMap, Entries.set])
    (fun x => by
      show Codec.enc x.arr_ ++ [] = _
      rw [List.append_nil]; exact vec4_enc x.arr_)
    (fun _ _ => by show _ ++ _ = _; simp)⟩

theorem described_pose : ∃ d, Described Pose d := by
  obtain ⟨dq, hq⟩ := described_quat
  exact ⟨_, described_struct
    (fieldsOk_cons "rot" (fun x : Pose => x.q) hq
      (fieldsOk_cons "trans" (fun x : Pose => x.translation) (described_vector ok_f64 3)
        fieldsOk_nil))
    (by simp [Entries.Plain, Entries.get, Entries.length])
    (by show mkMap _ = _; simp [mkMap, Entries.set])
    (fun _ => rfl) (fun _ _ => by show _ ++ _ = _; simp)⟩

theorem described_tangent : ∃ d, Described Tangent d :=
  ⟨_, described_struct
    (fieldsOk_cons "angular" (fun x : Tangent => (#v[x.v[0], x.v[1], x.v[2]] : Vector F64 3))
      (described_vector ok_f64 3)
      (fieldsOk_cons "linear" (fun x : Tangent => (#v[x.v[3], x.v[4], x.v[5]] : Vector F64 3))
        (described_vector ok_f64 3) fieldsOk_nil))
    (by simp [Entries.Plain, Entries.get, Entries.length])
    (by show mkMap _ = _; simp [mkMap, Entries.set])
    (fun x => vec6_enc x.v)
    (fun _ _ => by show tangentView _ _ = _; simp [tangentView])⟩

theorem described_jet : ∃ d, Described Jet d := by
  obtain ⟨dp, hp⟩ := described_pose
  obtain ⟨dt, ht⟩ := described_tangent
  exact ⟨_, described_struct
    (fieldsOk_cons "x" (fun x : Jet => x.x) hp
      (fieldsOk_cons "dx" (fun x : Jet => Tangent.mk x.dx) ht fieldsOk_nil))
    (by simp [Entries.Plain, Entries.get, Entries.length])
    (by show mkMap _ = _; simp [mkMap, Entries.set])
    (fun _ => rfl) (fun _ _ => by show _ ++ tangentView _ _ = _ ++ (tangentView _ _ ++ _); simp)⟩

theorem described_twojet : ∃ d, Described TwoJet d := by
  obtain ⟨dp, hp⟩ := described_pose
  obtain ⟨dt, ht⟩ := described_tangent
  exact ⟨_, described_struct
    (fieldsOk_cons "x" (fun x : TwoJet => x.x) hp
      (fieldsOk_cons "dx" (fun x : TwoJet => Tangent.mk x.dx) ht
        (fieldsOk_cons "d2x" (fun x : TwoJet => Tangent.mk x.d2x) ht fieldsOk_nil)))
    (by simp [Entries.Plain, Entries.get, Entries.length])
    (by show mkMap _ = _; simp [mkMap, Entries.set])
    (fun _ => rfl)
    (fun _ _ => by
      show _ ++ tangentView _ _ ++ tangentView _ _ = _ ++ (tangentView _ _ ++ (tangentView _ _ ++ _))
      simp)⟩

/-! ### Streams -/

/-- The entries of the header of a stream with different names. -/
def colEntries : List Col → Entries
  | [] => .nil
  | c :: cs => .cons c.name c.header.fmt (colEntries cs)

/-- Appending entries. -/
def app : Entries → Entries → Entries
  | .nil, es => es
  | .cons k v es, es' => .cons k v (app es es')

theorem app_nil : (es : Entries) → app es .nil = es
  | .nil => rfl
  | .cons k v es => congrArg (Entries.cons k v) (app_nil es)

theorem app_assoc : (a b c : Entries) → app (app a b) c = app a (app b c)
  | .nil, _, _ => rfl
  | .cons k v es, b, c => congrArg (Entries.cons k v) (app_assoc es b c)

theorem get_app : (a b : Entries) → (q : String) → (app a b).get q = (a.get q).or (b.get q)
  | .nil, _, _ => rfl
  | .cons k v es, b, q => by
    rw [app, Entries.get, Entries.get]
    by_cases h : k = q
    · simp [h]
    · simp [h, get_app es b q]

theorem length_app : (a b : Entries) → (app a b).length = a.length + b.length
  | .nil, _ => by simp [app, Entries.length]
  | .cons k v es, b => by simp [app, Entries.length, length_app es b]; omega

theorem set_new : (es : Entries) → (q : String) → (w : Yaml) → es.get q = none →
    es.set q w = app es (.cons q w .nil)
  | .nil, _, _, _ => rfl
  | .cons k v es, q, w, h => by
    rw [Entries.get] at h
    by_cases hk : k = q
    · simp [hk] at h
    · rw [if_neg hk] at h
      rw [Entries.set, if_neg hk, set_new es q w h, app]

theorem get_colEntries_none (cs : List Col) (q : String) (h : q ∉ cs.map Col.name) :
    (colEntries cs).get q = none := by
  induction cs with
  | nil => rfl
  | cons c cs ih =>
    simp only [List.map_cons, List.mem_cons, not_or] at h
    rw [colEntries, Entries.get, if_neg (Ne.symm h.1), ih h.2]

theorem length_colEntries (cs : List Col) : (colEntries cs).length = cs.length := by
  induction cs with
  | nil => rfl
  | cons c cs ih => simp [colEntries, Entries.length, ih]

/-- With different names every argument gets an entry of its own. -/
theorem fillFormat_new (cs : List Col) (es : Entries) (hn : (cs.map Col.name).Nodup)
    (ht : "t" ∉ cs.map Col.name) (he : ∀ c ∈ cs, es.get c.name = none) :
    fillFormat es cs = some (app es (colEntries cs)) := by
  induction cs generalizing es with
  | nil => rw [fillFormat, colEntries, app_nil]
  | cons c cs ih =>
    simp only [List.map_cons, List.mem_cons, not_or, List.nodup_cons] at hn ht
    have hc : es.get c.name = none := he c (List.mem_cons_self ..)
    rw [fillFormat, if_neg (Ne.symm ht.1), set_new es c.name _ hc, ih _ hn.2 ht.2, app_assoc]
    · rfl
    · intro c' hc'
      rw [get_app, he c' (List.mem_cons_of_mem _ hc')]
      have : c.name ≠ c'.name := fun h => hn.1 (h ▸ List.mem_map_of_mem hc')
      simp [Entries.get, this]

theorem makeFormat_good (cs : List Col) (h : GoodNames (cs.map Col.name)) :
    makeFormat cs = some (.map (.cons "t" (Header.fmt Stamp) (colEntries cs))) := by
  rw [makeFormat, fillFormat_new cs _ h.1 h.2]
  · rfl
  · intro c hc
    have : "t" ≠ c.name := fun e => h.2 (e ▸ List.mem_map_of_mem hc)
    simp [Entries.set, Entries.get, this]

/-- Every column has a right header. -/
def AllDescribed (vs : List VCol) : Prop :=
  ∀ v ∈ vs, ∃ d, @Described v.α v.codec v.header v.view d

theorem cols_fields (vs : List VCol) (h : AllDescribed vs) :
    ∃ fs, makeFields (colEntries (cols vs)) = some fs ∧
      ∀ x : Row (cols vs), (rowEnc (cols vs) x).length = fs.size ∧
        fs.read [] (rowEnc (cols vs) x) = rowView vs x := by
  induction vs with
  | nil => exact ⟨.nil, rfl, fun _ => ⟨rfl, rfl⟩⟩
  | cons v vs ih =>
    obtain ⟨fs, h1, h2⟩ := ih fun w hw => h w (List.mem_cons_of_mem _ hw)
    obtain ⟨d, hd⟩ := h v (List.mem_cons_self ..)
    letI := v.codec
    letI := v.header
    letI := v.view
    refine ⟨.cons v.name d fs, ?_, ?_⟩
    · show makeFields (.cons v.name v.header.fmt (colEntries (cols vs))) = _
      have := hd.dt
      simp [makeFields, this, h1]
    · intro x
      have hl : (v.codec.enc x.1).length = d.size := hd.len x.1
      constructor
      · show (v.codec.enc x.1 ++ rowEnc (cols vs) x.2).length = d.size + fs.size
        rw [List.length_append, hl, (h2 x.2).1]
      · show d.read ([] ++ [v.name]) ((v.codec.enc x.1 ++ rowEnc (cols vs) x.2).take d.size) ++
          fs.read [] ((v.codec.enc x.1 ++ rowEnc (cols vs) x.2).drop d.size) = _
        rw [← hl, List.take_left, List.drop_left, (h2 x.2).2]
        exact congrArg (· ++ rowView vs x.2) (hd.read [v.name] x.1)

theorem map_blocks {ρ β : Type} (n : Nat) (hn : 0 < n) (enc : ρ → List UInt8)
    (he : ∀ r, (enc r).length = n) (f : List UInt8 → β) (rs : List ρ) :
    (List.range ((rs.flatMap enc).length / n)).map
        (fun k => f (((rs.flatMap enc).drop (k * n)).take n)) = rs.map fun r => f (enc r) := by
  induction rs with
  | nil => simp
  | cons r rs ih =>
    have hl : ((r :: rs).flatMap enc).length / n = (rs.flatMap enc).length / n + 1 := by
      rw [List.flatMap_cons, List.length_append, he, Nat.add_comm, Nat.add_div_right _ hn]
    rw [hl, List.range_succ_eq_map, List.map_cons, List.map_map, List.map_cons]
    congr 1
    · rw [Nat.zero_mul, List.drop_zero, List.flatMap_cons, ← he r, List.take_left]
    · rw [← ih]
      congr 1; funext k
      show f (List.take n (List.drop ((k + 1) * n) (enc r ++ rs.flatMap enc))) = _
      rw [show (k + 1) * n = (enc r).length + k * n by rw [he, Nat.add_mul, Nat.one_mul, Nat.add_comm],
        List.drop_append, List.drop_eq_nil_of_le (by omega), Nat.add_sub_cancel_left, List.nil_append]

/-- A stream with at least one argument, different names, none of them `t`, `type`, `rows` or
`cols`, and only types with a right header: `log_reader.py` reads from the log file exactly the
records that were logged, every number under its name and index. -/
theorem C110_reads_back_partial (vs : List VCol) (hne : vs ≠ [])
    (hn : GoodNames ((cols vs).map Col.name))
    (hr : ∀ q ∈ ["type", "rows", "cols"], q ∉ (cols vs).map Col.name) (hd : AllDescribed vs) :
    ReadsBack vs := by
  obtain ⟨ds, hs⟩ := described_stamp
  obtain ⟨fs, h1, h2⟩ := cols_fields vs hd
  have hdt : makeDtype (.map (.cons "t" (Header.fmt Stamp) (colEntries (cols vs)))) =
      some (.struct (.cons "t" ds fs)) := by
    refine makeDtype_struct ⟨?_, ?_, ?_, ?_⟩ (by simp [makeFields, hs.dt, h1])
    · simp [Entries.get, get_colEntries_none (cols vs) "cols" (hr _ (by simp))]
    · simp [Entries.get, get_colEntries_none (cols vs) "rows" (hr _ (by simp))]
    · simp [Entries.get, get_colEntries_none (cols vs) "type" (hr _ (by simp))]
    · rw [Entries.length, length_colEntries, cols, List.length_map]
      have := List.length_pos_iff.2 hne
      omega
  have hsz : ∀ r : Stamp × Row (cols vs), (Codec.enc r.1 ++ rowEnc (cols vs) r.2).length =
      (DType.struct (.cons "t" ds fs)).size := by
    intro r
    rw [List.length_append, hs.len, (h2 r.2).1]; rfl
  intro rs
  have hpos : 0 < (DType.struct (.cons "t" ds fs)).size := by
    have : 0 < ds.size := by
      rw [← hs.len ⟨0, 0⟩]; decide
    show 0 < ds.size + fs.size
    omega
  have hb := map_blocks _ hpos (fun r : Stamp × Row (cols vs) => Codec.enc r.1 ++ rowEnc (cols vs) r.2)
    hsz (fun b => (DType.struct (.cons "t" ds fs)).read [] b) rs
  have hl : pyLoad (cols vs) (streamFile (cols vs) rs) =
      some (fromfile (.struct (.cons "t" ds fs)) (streamFile (cols vs) rs)) := by
    simp only [pyLoad, makeFormat_good (cols vs) hn]
    simp [hdt]
  rw [hl, fromfile, streamFile, hb]
  congr 1
  congr 1; funext r
  show ds.read ([] ++ ["t"]) ((Codec.enc r.1 ++ rowEnc (cols vs) r.2).take ds.size) ++
    fs.read [] ((Codec.enc r.1 ++ rowEnc (cols vs) r.2).drop ds.size) = _
  rw [← hs.len r.1, List.take_left, List.drop_left, (h2 r.2).2]
  exact congrArg (· ++ rowView vs r.2) (hs.read ["t"] r.1)

/-! ### The streams of the project -/

/-- The basic types, fixed-size vectors and matrices with one row or one column, and the classes
`UTCTime`, `ImuSample`, `GnssObservation`, `Quat`, `DQuat`, `TangentVector`, `Jet`, `TwoJet` have a
right header. -/
theorem C110_types :
    (∃ d, Described F64 d) ∧ (∃ d, Described F32 d) ∧ (∃ d, Described Int64 d) ∧
    (∃ d, Described Int32 d) ∧ (∃ d, Described Int16 d) ∧ (∃ d, Described Int8 d) ∧
    (∃ d, Described UInt64 d) ∧ (∃ d, Described UInt32 d) ∧ (∃ d, Described UInt16 d) ∧
    (∃ d, Described UInt8 d) ∧ (∀ n, ∃ d, Described (Vector F64 n) d) ∧
    (∀ r c, r ≤ 1 ∨ c ≤ 1 → ∃ d, Described (EMat F64 r c) d) ∧ (∃ d, Described Stamp d) ∧
    (∃ d, Described ImuSample d) ∧ (∃ d, Described GnssObservation d) ∧ (∃ d, Described Quat d) ∧
    (∃ d, Described Pose d) ∧ (∃ d, Described Tangent d) ∧ (∃ d, Described Jet d) ∧
    (∃ d, Described TwoJet d) :=
  ⟨⟨_, described_num ok_f64⟩, ⟨_, described_num ok_f32⟩, ⟨_, described_num ok_i64⟩,
    ⟨_, described_num ok_i32⟩, ⟨_, described_num ok_i16⟩, ⟨_, described_num ok_i8⟩,
    ⟨_, described_num ok_u64⟩, ⟨_, described_num ok_u32⟩, ⟨_, described_num ok_u16⟩,
    ⟨_, described_num ok_u8⟩, fun n => ⟨_, described_vector ok_f64 n⟩,
    fun _ _ h => ⟨_, described_matrix ok_f64 h⟩, described_stamp, described_imu, described_obs,
    described_quat, described_pose, described_tangent, described_jet, described_twojet⟩

/-- sim/simulate.cxx 86-87. -/
def truthPose : List VCol :=
  [{ name := "pose", α := TwoJet }, { name := "T_e2g", α := Pose }, { name := "clk", α := Vector F64 2 }]

/-- sim/simulate.cxx 88. -/
def imuStream : List VCol := [{ name := "imu", α := ImuSample }]

/-- sim/simulate.cxx 89, tools/gather_ephemeris.cxx 88. -/
def obsStream : List VCol := [{ name := "obs", α := GnssObservation }]

/-- core/ekf/rtk_ekf_estimator.cxx 39-40. -/
def obsResidual : List VCol :=
  [{ name := "sat_id", α := Int32 }, { name := "res", α := Vector F64 2 },
   { name := "z", α := Vector F64 2 }, { name := "zhat", α := Vector F64 2 }]

/-- The streams of the simulator and the observation residuals of the estimator are read back as
they were logged. -/
theorem C110_streams :
    ReadsBack truthPose ∧ ReadsBack imuStream ∧ ReadsBack obsStream ∧ ReadsBack obsResidual := by
  refine ⟨?_, ?_, ?_, ?_⟩
  · refine C110_reads_back_partial _ (by simp [truthPose]) (by simp [truthPose, cols, GoodNames])
      (by simp [truthPose, cols]) ?_
    intro v hv
    simp only [truthPose, List.mem_cons, List.not_mem_nil, or_false] at hv
    rcases hv with rfl | rfl | rfl
    · exact described_twojet
    · exact described_pose
    · exact ⟨_, described_vector ok_f64 2⟩
  · refine C110_reads_back_partial _ (by simp [imuStream]) (by simp [imuStream, cols, GoodNames])
      (by simp [imuStream, cols]) ?_
    intro v hv
    simp only [imuStream, List.mem_cons, List.not_mem_nil, or_false] at hv
    subst hv
    exact described_imu
  · refine C110_reads_back_partial _ (by simp [obsStream]) (by simp [obsStream, cols, GoodNames])
      (by simp [obsStream, cols]) ?_
    intro v hv
    simp only [obsStream, List.mem_cons, List.not_mem_nil, or_false] at hv
    subst hv
    exact described_obs
  · refine C110_reads_back_partial _ (by simp [obsResidual])
      (by simp [obsResidual, cols, GoodNames]) (by simp [obsResidual, cols]) ?_
    intro v hv
    simp only [obsResidual, List.mem_cons, List.not_mem_nil, or_false] at hv
    rcases hv with rfl | rfl | rfl | rfl
    · exact ⟨_, described_num ok_i32⟩
    all_goals exact ⟨_, described_vector ok_f64 2⟩

/-- Two records of observation residuals, read back. -/
example : pyLoad (cols obsResidual) (streamFile (cols obsResidual)
      [(⟨1, 2⟩, (-3, #v[⟨4⟩, ⟨5⟩], #v[⟨6⟩, ⟨7⟩], #v[⟨8⟩, ⟨9⟩], ())),
       (⟨-1, 10⟩, (11, #v[⟨12⟩, ⟨13⟩], #v[⟨14⟩, ⟨15⟩], #v[⟨16⟩, ⟨17⟩], ()))]) = some
    [[((["t", "sec"], []), .int 1), ((["t", "nsec"], []), .int 2), ((["sat_id"], []), .int (-3)),
      ((["res"], [0, 0]), .f64 4), ((["res"], [1, 0]), .f64 5), ((["z"], [0, 0]), .f64 6),
      ((["z"], [1, 0]), .f64 7), ((["zhat"], [0, 0]), .f64 8), ((["zhat"], [1, 0]), .f64 9)],
     [((["t", "sec"], []), .int (-1)), ((["t", "nsec"], []), .int 10), ((["sat_id"], []), .int 11),
      ((["res"], [0, 0]), .f64 12), ((["res"], [1, 0]), .f64 13), ((["z"], [0, 0]), .f64 14),
      ((["z"], [1, 0]), .f64 15), ((["zhat"], [0, 0]), .f64 16), ((["zhat"], [1, 0]), .f64 17)]] := by
  rw [C110_streams.2.2.2]; rfl

/-! ### Ephemerides -/

/-- The stream of tools/gather_ephemeris.cxx 52 with ephemerides of type `α`. -/
def ephCols (α : Type) [Codec α] [Header α] : List Col := [{ name := "eph", α := α }]

theorem load_count (cs : List Col) (n : Nat) (y : Yaml) (d : DType) (hy : makeFormat cs = some y)
    (hd : makeDtype y = some d) (hl : ∀ x : Row cs, (rowEnc cs x).length = n)
    (rs : List (Stamp × Row cs)) :
    (pyLoad cs (streamFile cs rs)).map List.length = some (rs.length * (16 + n) / d.size) := by
  have hlen : (streamFile cs rs).length = rs.length * (16 + n) := by
    induction rs with
    | nil => simp [streamFile]
    | cons r rs ih =>
      have e : streamFile cs (r :: rs) = (Codec.enc r.1 ++ rowEnc cs r.2) ++ streamFile cs rs := rfl
      have h16 : (Codec.enc r.1).length = 16 := (Lawful.laws (α := Stamp)).len r.1
      rw [e, List.length_append, List.length_append, hl, h16, ih, List.length_cons, Nat.add_mul,
        Nat.one_mul, Nat.add_comm]
  simp [pyLoad, hy, hd, fromfile, hlen]

theorem eph_count {α : Type} [Codec α] [Header α] (n m : Nat) (hl : ∀ x : α, (Codec.enc x).length = n)
    (hm : ((makeFormat (ephCols α)).bind makeDtype).map DType.size = some m)
    (rs : List (Stamp × Row (ephCols α))) :
    (pyLoad (ephCols α) (streamFile (ephCols α) rs)).map List.length =
      some (rs.length * (16 + n) / m) := by
  rcases hy : makeFormat (ephCols α) with _ | y
  · simp [hy] at hm
  rcases hd : makeDtype y with _ | d
  · simp [hy, hd] at hm
  have hm' : d.size = m := by simpa [hy, hd] using hm
  rw [load_count _ n y d hy hd (fun x => ?_), hm']
  show (Codec.enc x.1 ++ []).length = n
  rw [List.append_nil, hl]

/-- The header of GPS ephemerides has four bytes more than the record (`iode1`, `iode2`, `iode3` and
`collected_subframes` are in the header but are not written): of `n` records of 228 bytes the reader
finds `n * 228 / 232`. -/
theorem C110_gps_violated (rs : List (Stamp × Row (ephCols GpsEph))) :
    (pyLoad (ephCols GpsEph) (streamFile (ephCols GpsEph) rs)).map List.length =
      some (rs.length * (16 + 212) / 232) :=
  eph_count 212 232 (fun x => (gps_laws.len x).trans (by decide +kernel)) (by decide +kernel) rs

/-- The header of Galileo ephemerides has 21 bytes more than the record (`collected_subframes`,
`time_f`, `iod`). -/
theorem C110_galileo_violated (rs : List (Stamp × Row (ephCols GalEph))) :
    (pyLoad (ephCols GalEph) (streamFile (ephCols GalEph) rs)).map List.length =
      some (rs.length * (16 + 239) / 276) :=
  eph_count 239 276 (fun x => (gal_laws.len x).trans (by decide +kernel)) (by decide +kernel) rs

/-- The header of GLONASS ephemerides lacks the second `toe` of the record and has 33 bytes that are
not written (`frame_flags`, `time_mark`, `tk_h`, ..., `NA`). -/
theorem C110_glonass_violated (rs : List (Stamp × Row (ephCols GloEph))) :
    (pyLoad (ephCols GloEph) (streamFile (ephCols GloEph) rs)).map List.length =
      some (rs.length * (16 + 166) / 199) :=
  eph_count 166 199 (fun x => (glo_laws.len x).trans (by decide +kernel)) (by decide +kernel) rs

/-- From a file with one ephemeris of any of the three systems the reader gets nothing, and from a
file with any positive number of them fewer than were logged. -/
theorem C110_ephemeris_lost_violated :
    (∀ rs : List (Stamp × Row (ephCols GpsEph)), rs ≠ [] →
      pyLoad (ephCols GpsEph) (streamFile (ephCols GpsEph) rs) ≠ none ∧
      ∀ out, pyLoad (ephCols GpsEph) (streamFile (ephCols GpsEph) rs) = some out →
        out.length < rs.length) ∧
    (∀ rs : List (Stamp × Row (ephCols GalEph)), rs ≠ [] →
      pyLoad (ephCols GalEph) (streamFile (ephCols GalEph) rs) ≠ none ∧
      ∀ out, pyLoad (ephCols GalEph) (streamFile (ephCols GalEph) rs) = some out →
        out.length < rs.length) ∧
    (∀ rs : List (Stamp × Row (ephCols GloEph)), rs ≠ [] →
      pyLoad (ephCols GloEph) (streamFile (ephCols GloEph) rs) ≠ none ∧
      ∀ out, pyLoad (ephCols GloEph) (streamFile (ephCols GloEph) rs) = some out →
        out.length < rs.length) := by
  refine ⟨fun rs hne => ?_, fun rs hne => ?_, fun rs hne => ?_⟩
  · have h := C110_gps_violated rs
    have hp := List.length_pos_iff.2 hne
    rcases hq : pyLoad (ephCols GpsEph) (streamFile (ephCols GpsEph) rs) with _ | o
    · simp [hq] at h
    · refine ⟨by simp, fun out ho => ?_⟩
      rw [hq] at h
      obtain rfl : o = out := by simpa using ho
      have : o.length = rs.length * (16 + 212) / 232 := by simpa using h
      omega
  · have h := C110_galileo_violated rs
    have hp := List.length_pos_iff.2 hne
    rcases hq : pyLoad (ephCols GalEph) (streamFile (ephCols GalEph) rs) with _ | o
    · simp [hq] at h
    · refine ⟨by simp, fun out ho => ?_⟩
      rw [hq] at h
      obtain rfl : o = out := by simpa using ho
      have : o.length = rs.length * (16 + 239) / 276 := by simpa using h
      omega
  · have h := C110_glonass_violated rs
    have hp := List.length_pos_iff.2 hne
    rcases hq : pyLoad (ephCols GloEph) (streamFile (ephCols GloEph) rs) with _ | o
    · simp [hq] at h
    · refine ⟨by simp, fun out ho => ?_⟩
      rw [hq] at h
      obtain rfl : o = out := by simpa using ho
      have : o.length = rs.length * (16 + 166) / 199 := by simpa using h
      omega

/-! ### Matrices -/

/-- A square matrix is read as its transpose. -/
theorem C110_square_transposed {α : Type} [Raw α] [LawfulRaw α] [TypeCode α] [Number α] {s : Scalar}
    (h : NumOk α s) {n : Nat} (p : List String) (m : EMat α n n) :
    (DType.matrix s n n).read p (Codec.enc m) =
      (List.finRange n).flatMap fun i => (List.finRange n).map fun j =>
        ((p, [i.val, j.val]), num (entry m j i)) := by
  rw [read_matrix h]
  congr 1; funext i
  congr 1; funext j
  simp only [entry, show j.val + n * i.val = i.val * n + j.val by rw [Nat.mul_comm, Nat.add_comm]]

/-- A stream with one matrix. -/
def matStream (r c : Nat) : List VCol := [{ name := "m", α := EMat Int32 r c }]

/-- `[[1, 2, 3], [4, 5, 6]]` in memory and as the reader gives it: the second number of the first row
is 4. -/
theorem C110_matrix_violated :
    (entry (⟨#v[1, 4, 2, 5, 3, 6]⟩ : EMat Int32 2 3) 0 1 = 2) ∧
    pyLoad (cols (matStream 2 3)) (streamFile (cols (matStream 2 3))
        [(⟨0, 0⟩, (⟨#v[1, 4, 2, 5, 3, 6]⟩, ()))]) =
      some [[((["t", "sec"], []), .int 0), ((["t", "nsec"], []), .int 0), ((["m"], [0, 0]), .int 1),
        ((["m"], [0, 1]), .int 4), ((["m"], [0, 2]), .int 2), ((["m"], [1, 0]), .int 5),
        ((["m"], [1, 1]), .int 3), ((["m"], [1, 2]), .int 6)]] ∧
    ¬ ReadsBack (matStream 2 3) := by
  have h : pyLoad (cols (matStream 2 3)) (streamFile (cols (matStream 2 3))
        [(⟨0, 0⟩, (⟨#v[1, 4, 2, 5, 3, 6]⟩, ()))]) =
      some [[((["t", "sec"], []), .int 0), ((["t", "nsec"], []), .int 0), ((["m"], [0, 0]), .int 1),
        ((["m"], [0, 1]), .int 4), ((["m"], [0, 2]), .int 2), ((["m"], [1, 0]), .int 5),
        ((["m"], [1, 1]), .int 3), ((["m"], [1, 2]), .int 6)]] := by decide +kernel
  refine ⟨rfl, h, fun hb => ?_⟩
  have h2 := hb [(⟨0, 0⟩, (⟨#v[1, 4, 2, 5, 3, 6]⟩, ()))]
  rw [h] at h2
  have h3 : recordView (matStream 2 3) (⟨0, 0⟩, (⟨#v[1, 4, 2, 5, 3, 6]⟩, ())) =
      [((["t", "sec"], []), .int 0), ((["t", "nsec"], []), .int 0), ((["m"], [0, 0]), .int 1),
        ((["m"], [0, 1]), .int 2), ((["m"], [0, 2]), .int 3), ((["m"], [1, 0]), .int 4),
        ((["m"], [1, 1]), .int 5), ((["m"], [1, 2]), .int 6)] := by decide +kernel
  rw [List.map_cons, h3] at h2
  exact absurd h2 (by decide)

/-- A vector whose length is set at run time has no numbers in the header: nothing of it is read, and
its bytes are taken for the next records. -/
theorem C110_dynamic_violated :
    pyLoad (cols [{ name := "v", α := List F64 }]) (streamFile (cols [{ name := "v", α := List F64 }])
        [(⟨1, 2⟩, ([⟨3⟩, ⟨4⟩], ()))]) =
      some [[((["t", "sec"], []), .int 1), ((["t", "nsec"], []), .int 2)],
        [((["t", "sec"], []), .int 3), ((["t", "nsec"], []), .int 4)]] := by
  decide +kernel

/-! ### Names -/

/-- Two arguments with one name share one entry of the header; the logger does not notice. -/
theorem C110_same_name_violated :
    pyLoad (cols [{ name := "a", α := Int64 }, { name := "a", α := Int64 }])
        (streamFile (cols [{ name := "a", α := Int64 }, { name := "a", α := Int64 }])
          [(⟨1, 2⟩, (3, 4, ())), (⟨5, 6⟩, (7, 8, ()))]) =
      some [[((["t", "sec"], []), .int 1), ((["t", "nsec"], []), .int 2), ((["a"], []), .int 3)],
        [((["t", "sec"], []), .int 4), ((["t", "nsec"], []), .int 5), ((["a"], []), .int 6)]] := by
  decide +kernel

theorem makeDtype_reserved {es : Entries} (h : es.scalar = none)
    (hk : ∃ k ∈ ["type", "rows", "cols"], (es.get k).isSome) : makeDtype (.map es) = none := by
  obtain ⟨k, hk, hs⟩ := hk
  simp only [List.mem_cons, List.not_mem_nil, or_false] at hk
  rw [makeDtype]
  by_cases h1 : (es.get "cols").isSome
  · simp [h1, h]
  by_cases h2 : (es.get "rows").isSome
  · simp [h1, h2, h]
  by_cases h3 : (es.get "type").isSome
  · simp [h1, h2, h3, h]
  rcases hk with rfl | rfl | rfl
  · exact absurd hs h3
  · exact absurd hs h2
  · exact absurd hs h1

/-- Headers are mappings. -/
def MapHeaders (cs : List Col) : Prop := ∀ c ∈ cs, ∃ es, c.header.fmt = .map es

theorem get_map (cs : List Col) (h : MapHeaders cs) (q : String) (n : Nat) :
    (colEntries cs).get q ≠ some (.num n) := by
  induction cs with
  | nil => simp [colEntries, Entries.get]
  | cons c cs ih =>
    obtain ⟨es, he⟩ := h c (List.mem_cons_self ..)
    rw [colEntries, Entries.get]
    by_cases hc : c.name = q
    · rw [if_pos hc, he]; simp
    · rw [if_neg hc]; exact ih fun c' hc' => h c' (List.mem_cons_of_mem _ hc')

theorem get_isSome (cs : List Col) (q : String) (h : q ∈ cs.map Col.name) :
    ((colEntries cs).get q).isSome := by
  induction cs with
  | nil => simp at h
  | cons c cs ih =>
    rw [colEntries, Entries.get]
    by_cases hc : c.name = q
    · simp [hc]
    · rw [if_neg hc]
      exact ih (by simpa [Ne.symm hc] using h)

/-- A stream with an argument called `type`, `rows` or `cols`: the logger writes it, and the reader
raises an exception whatever is in the file. -/
theorem C110_reserved_name_violated (cs : List Col) (hn : GoodNames (cs.map Col.name))
    (hm : MapHeaders cs) (hr : ∃ q ∈ ["type", "rows", "cols"], q ∈ cs.map Col.name)
    (bytes : List UInt8) : (makeFormat cs).isSome ∧ pyLoad cs bytes = none := by
  have hf := makeFormat_good cs hn
  refine ⟨by simp [hf], ?_⟩
  have : makeDtype (.map (.cons "t" (Header.fmt Stamp) (colEntries cs))) = none := by
    refine makeDtype_reserved ?_ ?_
    · rw [Entries.scalar]
      have := get_map cs hm "type"
      rcases hg : (Entries.cons "t" (Header.fmt Stamp) (colEntries cs)).get "type" with _ | (n | es)
      · rfl
      · rw [Entries.get, if_neg (by decide)] at hg
        exact absurd hg (this n)
      · rfl
    · obtain ⟨q, hq, hqc⟩ := hr
      refine ⟨q, hq, ?_⟩
      have hqt : "t" ≠ q := by rintro rfl; simp at hq
      rw [Entries.get, if_neg hqt]
      exact get_isSome cs q hqc
  simp [pyLoad, hf, this]

/-- The hypotheses hold for a stream with an argument called `type`. -/
example (bytes : List UInt8) : pyLoad [{ name := "type", α := Int32 }] bytes = none :=
  (C110_reserved_name_violated _ (by simp [GoodNames]) (by
    intro c hc
    simp only [List.mem_cons, List.not_mem_nil, or_false] at hc
    subst hc
    exact ⟨_, rfl⟩) ⟨"type", by simp, by simp⟩ bytes).2

/-- The claim: whatever types a stream is made of, if the logger takes the names, Python reads back
what was logged. -/
def C110_statement : Prop :=
  ∀ vs : List VCol, vs ≠ [] → (makeFormat (cols vs)).isSome → ReadsBack vs

theorem C110_statement_false : ¬ C110_statement := fun h =>
  C110_matrix_violated.2.2 (h (matStream 2 3) (by simp [matStream]) (by decide +kernel))

end Verif.Props.LogFormat
