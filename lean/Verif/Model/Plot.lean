import Verif.Model.Streams
import Mathlib.Data.List.Dedup
import Mathlib.Algebra.Order.Field.Rat

/-!
# Model of the plotting scripts

plotting/standard_plot.py, plotting/plot_obs.py, the calls of tools/plot_post_process.py, and log_reader.py 86-97.

Simplifications: a structured array is its numpy type and its records (as `Model/LogFormat.lean` reads them); a figure is its panels, a
panel its lines, a line its points.  A Python exception is `none`.  Colours, labels and legends are left out.  `np.vstack` of anything
but columns of numbers is `none` (the scripts never do it).  The conversion of a stamp to seconds (log_reader.py 92-94) is a
parameter `τ`, as it rounds.
-/

namespace Verif.Model.Plot

open Verif.Log Verif.Log.Streams

/-! ### log_reader.py 86-97 -/

/-- `data.dtype[name]`. -/
def field : DFields → String → Option DType
  | .nil, _ => none
  | .cons k d fs, s => if k = s then some d else field fs s

mutual
/-- numpy's `_recursive_rename_fields`: the names of inner fields change as well. -/
def renameType (old new : String) : DType → DType
  | .scalar s => .scalar s
  | .array s n => .array s n
  | .matrix s r c => .matrix s r c
  | .struct fs => .struct (rename old new fs)
/-- `rename_fields` of one name. -/
def rename (old new : String) : DFields → DFields
  | .nil => .nil
  | .cons k d fs => .cons (if k = old then new else k) (renameType old new d) (rename old new fs)
end

/-- A field at the end. -/
def snoc : DFields → String → DType → DFields
  | .nil, k, d => .cons k d .nil
  | .cons k' d' fs, k, d => .cons k' d' (snoc fs k d)

/-- A structured array. -/
structure Arr where
  d : DType
  recs : List Reading

/-- log_reader.py 90, on a record. -/
def renameRec (old new : String) (r : Reading) : Reading :=
  r.map fun e => ((e.1.1.map fun k => if k = old then new else k, e.1.2), e.2)

/-- log_reader.py 86-97: with times as seconds; `none` if there is no stamp to take them from. -/
def normalize (τ : Num → Num → Num) (a : Arr) : Option Arr :=
  match a.d with
  | .struct fs =>
    if (field fs "t").isSome then
      (a.recs.mapM fun r =>
        let r := renameRec "t" "stamp" r
        (r.lookup (["stamp", "sec"], [])).bind fun s => (r.lookup (["stamp", "nsec"], [])).map fun n =>
          r ++ [((["t"], []), τ s n)]).map
        fun rs => ⟨.struct (snoc (rename "t" "stamp" fs) "t" (.scalar .float64)), rs⟩
    else some a
  | _ => none

/-- log_reader.py 71-98 for one stream. -/
def load (τ : Num → Num → Num) (cs : List Col) (bytes : List UInt8) : Option Arr :=
  ((makeFormat cs).bind makeDtype).bind fun d => normalize τ ⟨d, fromfile d bytes⟩

/-! ### standard_plot.py -/

/-- A key: a name or a number. -/
inductive Sub where
  | str (s : String)
  | int (i : ℕ)

/-- An element of a list of keys. -/
inductive Key where
  | one (s : Sub)
  | many (l : List Sub)

/-- What `field` is: still a part of the records, a column of numbers, or several (the columns of a two-dimensional array). -/
inductive Fld where
  | node (d : DType) (p : List String)
  | col (c : List Num)
  | cols (cs : List (List Num))

/-- `extract` (standard_plot.py 13-19). -/
def extract (a : Arr) : Fld → Sub → Option Fld
  | .node (.struct fs) p, .str s => (field fs s).map fun d => .node d (p ++ [s])
  | .node (.matrix _ r c) p, .int i =>
    if i < r ∧ 0 < c then (a.recs.mapM fun (x : Reading) => x.lookup (p, [i, 0])).map .col else none
  | _, _ => none

/-- A one-dimensional array of numbers. -/
def column (a : Arr) : Fld → Option (List Num)
  | .node (.scalar _) p => a.recs.mapM fun (x : Reading) => x.lookup (p, [])
  | .col c => some c
  | _ => none

/-- standard_plot.py 25-29. -/
def step (a : Arr) (f : Fld) : Key → Option Fld
  | .one s => extract a f s
  | .many [] => none
  | .many l => (l.mapM fun s => (extract a f s).bind (column a)).map .cols

/-- standard_plot.py 32-34: what can be drawn, a column or several. -/
def finish (a : Arr) : Fld → Option (List Num ⊕ List (List Num))
  | .node (.matrix _ r c) p =>
    if 0 < c then ((List.range r).mapM fun i => a.recs.mapM fun (x : Reading) => x.lookup (p, [i, 0])).map .inr else none
  | .node (.array _ n) p => ((List.range n).mapM fun i => a.recs.mapM fun (x : Reading) => x.lookup (p, [i])).map .inr
  | .node (.scalar s) p => (column a (.node (.scalar s) p)).map .inl
  | .node (.struct _) _ => none
  | .col c => some (.inl c)
  | .cols cs => some (.inr cs)

/-- `bottom_field` (standard_plot.py 22-34). -/
def bottomField (a : Arr) (keys : List Key) : Option (List Num ⊕ List (List Num)) :=
  (keys.foldlM (step a) (.node a.d [])).bind (finish a)

/-- The columns of what can be drawn. -/
def columns : List Num ⊕ List (List Num) → List (List Num)
  | .inl c => [c]
  | .inr cs => cs

/-- A panel: its lines. -/
abbrev Panel := List (List (Num × Num))

/-- `raw_plot` (standard_plot.py 43-68): one panel for each column; a line for each column of times. -/
def rawPlot (x y : List Num ⊕ List (List Num)) : List Panel :=
  (columns y).map fun c => (columns x).map fun t => t.zip c

/-- `standard_plot` (standard_plot.py 37-40). -/
def standardPlot (a : Arr) (yKeys xKeys : List Key) : Option (List Panel) :=
  (bottomField a xKeys).bind fun x => (bottomField a yKeys).map fun y => rawPlot x y

/-- Scipy's `interp1d(…)(x)` on points in the order of their times: an exception outside of them, otherwise the line through the
neighbours (`searchsorted`, clipped to the inner places). -/
def interpAt (pts : List (ℚ × ℚ)) (x : ℚ) : Option ℚ :=
  pts.head?.bind fun first => pts.getLast?.bind fun last =>
    if x < first.1 ∨ last.1 < x then none
    else
      let i := max 1 (min (pts.countP fun p => decide (p.1 < x)) (pts.length - 1))
      pts[i - 1]?.bind fun lo => pts[i]?.bind fun hi =>
        if hi.1 = lo.1 then none else some ((hi.2 - lo.2) / (hi.1 - lo.1) * (x - lo.1) + lo.2)

/-- `difference_signals` (standard_plot.py 71-81), one component; the second signal is sorted by `interp1d`. -/
def differenceSignals (d1 d2 : List (ℚ × ℚ)) : Option (List ℚ) :=
  d1.mapM fun p => (interpAt (d2.mergeSort fun a b => decide (a.1 ≤ b.1)) p.1).map (p.2 - ·)

/-! ### plot_post_process.py -/

/-- The streams of the script (plot_post_process.py 22-24). -/
inductive Stream where
  | est | truth | imu
deriving DecidableEq

/-- The announced columns: post_process.cxx 209-211; simulate.cxx 86-88. -/
def Stream.cols : Stream → List Col
  | .est => estimateCols
  | .truth => [{ name := "pose", α := TwoJet }, { name := "T_e2g", α := Pose }, { name := "clk", α := Vector F64 2 }]
  | .imu => [{ name := "imu", α := ImuSample }]

/-- A name as a key. -/
def nm (s : String) : Key := .one (.str s)

/-- Numbers as a key. -/
def ix (l : List ℕ) : Key := .many (l.map .int)

/-- Names as a key. -/
def nms (l : List String) : Key := .many (l.map .str)

/-- The calls of `standard_plot` (plot_post_process.py 33-70): stream, `y_key`, `x_key`. -/
def calls : List (Stream × List Key × List Key) :=
  [(.est, [nm "pose", nm "trans", ix [0]], [nm "pose", nm "trans", ix [1]]),
   (.truth, [nm "pose", nm "x", nm "trans", ix [0]], [nm "pose", nm "x", nm "trans", ix [1]]),
   (.est, [nm "pose", nm "trans", ix [0, 1, 2]], [nm "t"]),
   (.truth, [nm "pose", nm "x", nm "trans", ix [0, 1, 2]], [nm "t"]),
   (.est, [nm "p_ecef", ix [0, 1, 2]], [nm "t"]),
   (.truth, [nm "T_e2g", nm "trans", ix [0, 1, 2]], [nm "t"]),
   (.est, [nm "pose", nm "rot", nms ["w", "x", "y", "z"]], [nm "t"]),
   (.truth, [nm "pose", nm "x", nm "rot", nms ["w", "x", "y", "z"]], [nm "t"]),
   (.est, [nm "vel", ix [0, 1, 2]], [nm "t"]),
   (.truth, [nm "pose", nm "dx", nm "linear", ix [0, 1, 2]], [nm "t"]),
   (.est, [nm "omg", ix [0, 1, 2]], [nm "t"]),
   (.truth, [nm "pose", nm "dx", nm "angular", ix [0, 1, 2]], [nm "t"]),
   (.est, [nm "acc", ix [0, 1, 2]], [nm "t"]),
   (.imu, [nm "imu", nm "accel", ix [0, 1, 2]], [nm "t"]),
   (.est, [nm "gps_clk", ix [0, 1]], [nm "t"]),
   (.est, [nm "gal_clk", ix [0, 1]], [nm "t"]),
   (.est, [nm "gal_clk", ix [0, 1]], [nm "t"]),
   (.truth, [nm "clk", ix [0, 1]], [nm "t"])]

/-! ### plot_obs.py -/

/-- `GNSS_ID_TO_NAME` (plot_obs.py 4). -/
def gnssName : ℕ → Option String
  | 0 => some "GPS"
  | 1 => some "SBAS"
  | 2 => some "GAL"
  | 3 => some "COM"
  | 5 => some "QZSS"
  | 6 => some "GLO"
  | _ => none

/-- A record of the observations. -/
structure Obs (V : Type) where
  t : V
  gnss : ℕ
  freq : ℚ
  sat : ℕ
  fields : Fin 3 → V

/-- `np.unique`: the different elements in their order. -/
def unique {α : Type} [DecidableEq α] (le : α → α → Bool) (l : List α) : List α := l.dedup.mergeSort le

/-- The order of the columns of frequencies and satellites. -/
def pairLe (a b : ℚ × ℕ) : Bool := decide (a.1 < b.1) || (decide (a.1 = b.1) && decide (a.2 ≤ b.2))

/-- A row of panels that has been drawn: its place, its satellite, whether it has titles, its three lines. -/
structure Drawn (V : Type) where
  place : ℕ
  label : String
  sat : ℕ
  titles : Bool
  lines : Fin 3 → List (V × V)

/-- The body of the loop over satellites (plot_obs.py 15-30); `rows` is the number of rows of the grid: with one row `axs[i]` is no
row but a panel, which `zip` refuses. -/
def drawRow {V : Type} (g rows : ℕ) (o : List (Obs V)) (i : ℕ) (fs : ℚ × ℕ) : Option (Option (Drawn V)) :=
  if fs.1 = 0 then some none
  else if rows = 1 then none
  else (gnssName g).map fun name =>
    let os := o.filter fun x => decide (x.sat = fs.2) && decide (x.freq = fs.1)
    some ⟨i, name, fs.2, decide (i = 0), fun j => os.map fun x => (x.t, x.fields j)⟩

/-- The body of the loop over constellations (plot_obs.py 10-32); no tab if nothing was drawn. -/
def drawSystem {V : Type} (obs : List (Obs V)) (g : ℕ) : Option (Option (String × List (Drawn V))) :=
  let o := obs.filter fun x => decide (x.gnss = g)
  let sf := unique pairLe (o.map fun x => (x.freq, x.sat))
  (sf.zipIdx.mapM fun e => drawRow g sf.length o e.2 e.1).bind fun rows =>
    let drawn := rows.reduceOption
    if drawn.isEmpty then some none else (gnssName g).map fun name => some (name, drawn)

/-- `plot_obs` (plot_obs.py 7-32): the tabs. -/
def plotObs {V : Type} (obs : List (Obs V)) : Option (List (String × List (Drawn V))) :=
  ((unique (fun a b => decide (a ≤ b)) (obs.map Obs.gnss)).mapM (drawSystem obs)).map List.reduceOption

/-- `obs['x']['gnss_id']` (plot_obs.py 8) on an array of type `d`. -/
def obsColumn : DType → Option DType
  | .struct fs => (field fs "x").bind fun d => match d with
    | .struct fs => field fs "gnss_id"
    | _ => none
  | _ => none

/-- `plot_obs_residual` (plot_obs.py 35-60) with two components for each record: the panels, and the title of the figure, which is set
twice (`suptitle`). -/
def plotResidual {V : Type} (obs : List (V × ℕ × (Fin 2 → V))) : Option (Option String × List (List (V × V))) :=
  let ids := unique (fun a b => decide (a ≤ b)) (obs.map fun o => o.2.1)
  if ids.length < 30 then
    some (if ids = [] then none else some "doppler",
      ids.flatMap fun s =>
        let r := obs.filter fun o => decide (o.2.1 = s)
        [r.map fun o => (o.1, o.2.2 0), r.map fun o => (o.1, o.2.2 1)])
  else none

end Verif.Model.Plot
