import Mathlib.Algebra.Order.Floor.Ring
import Mathlib.Algebra.Order.Archimedean.Real.Basic

/-!
# Interpolation in tables (`lib/Astrobj.C:1626-1831`, `lib/GridData2D.C:339-505`)

Doubles are reals. Arrays are lists and reading outside of one is `ub`, as is converting to an integer a number that does not fit.
`nan` stands for a result that is not a number. `int` arithmetic on indices is exact (tables hold less than 2^31 values). The
early `return 0.` of `interpolate` is the exit `zero`, caught at the end of the function. -/

namespace Gyoto.Interp

/-- Ways of not returning normally. -/
inductive Fail where
  | thrown
  | ub
  | nan
  | zero
deriving DecidableEq

abbrev Out := Except Fail

/-- The strings compared with in `lib/Astrobj.C:1645-1699`; `other` is any other string. -/
inductive Cond where
  | none
  | constant
  | linear
  | periodic
  | null
  | other
deriving DecidableEq

/-- Read `l[i]`. -/
def get {α : Type} (l : List α) (i : Nat) : Out α :=
  match l[i]? with
  | some a => .ok a
  | .none => .error .ub

/-- Read `l[i]` with an `int` index. -/
def geti {α : Type} (l : List α) (i : Int) : Out α := if i < 0 then .error .ub else get l i.toNat

/-- `int(floor(v/dx))`: undefined when `v/dx` is infinite or not a number, or does not fit in an `int`. -/
noncomputable def floorInt (v dx : ℝ) : Out Int :=
  if dx = 0 then .error .ub
  else if -2 ^ 31 ≤ ⌊v / dx⌋ ∧ ⌊v / dx⌋ < 2 ^ 31 then .ok ⌊v / dx⌋ else .error .ub

/-- `std::fmod(x, y)` for `y ≠ 0`: what is left of `x` after removing `y` a whole number of times, rounded towards zero. -/
noncomputable def fmod (x y : ℝ) : ℝ := x - y * (if 0 ≤ x / y then (⌊x / y⌋ : ℝ) else (⌈x / y⌉ : ℝ))

/-- `Generic::interp1d` (`lib/Astrobj.C:1626-1628`). -/
def interp1d (x y0 y1 : ℝ) : ℝ := y0 + x * (y1 - y0)

/-- The position inside the cell along dimension `N-n` (`lib/Astrobj.C:1641-1654`). `X` holds the coordinates of the `2^N`
corners. -/
noncomputable def cellPos (N n : Nat) (Xq : List ℝ) (X : List (List ℝ)) (cond : List Cond) : Out ℝ := do
  let indx := if N - n = 0 then 1 else 2 ^ (N - n) + 1
  let xq ← get Xq (N - n)
  let x0 ← get (← get X 0) (N - n)
  let x1 ← get (← get X indx) (N - n)
  let t := if x1 - x0 = 0 then 0 else (xq - x0) / (x1 - x0)
  if t < 0 ∨ t > 1 then
    if (← get cond (N - n)) = .none then .error .thrown
    else if (← get cond (n - 1)) = .constant then
      if t < 0 then .ok 0 else .ok 1
    else .ok t
  else .ok t

/-- Interpolate between neighbours (`lib/Astrobj.C:1656-1658`). -/
def reduce (t : ℝ) (len : Nat) (Xdim : List ℝ) : Out (List ℝ) :=
  (List.range len).mapM fun i => do
    let a ← get Xdim (2 * i)
    let b ← get Xdim (2 * i + 1)
    .ok (interp1d t a b)

/-- The loop of `interpNd` (`lib/Astrobj.C:1637-1664`), `n` dimensions remaining. -/
noncomputable def interpLoop (N : Nat) (Xq : List ℝ) (X : List (List ℝ)) (cond : List Cond) : Nat → List ℝ → ℝ → Out ℝ
  | 0, _, res => .ok res
  | n + 1, Xdim, _ => do
    let t ← cellPos N (n + 1) Xq X cond
    let sub ← reduce t (2 ^ n) Xdim
    let res ← get sub 0
    interpLoop N Xq X cond n sub res

/-- `Generic::interpNd` (`lib/Astrobj.C:1630-1667`). -/
noncomputable def interpNd (N : Nat) (Xq : List ℝ) (X : List (List ℝ)) (Y : List ℝ) (cond : List Cond) : Out ℝ :=
  if Y.length < 2 ^ N then .error .ub else interpLoop N Xq X cond N (Y.take (2 ^ N)) 0

/-- The search in a list of coordinates (`lib/Astrobj.C:1706-1709`). -/
noncomputable def search (xq : ℝ) (X : List ℝ) (n : Nat) (i : Nat) : Out Nat :=
  match _h : X[i]? with
  | .none => .error .ub
  | some a =>
    if xq > a then
      match X[i + 1]? with
      | .none => .error .ub
      | some b => if xq > b ∧ (i : Int) < (n : Int) - 1 then search xq X n (i + 1) else .ok i
    else .ok i
termination_by X.length - i
decreasing_by
  have := (List.getElem?_eq_some_iff.1 _h).1
  omega

/-- `Generic::getIndice` (`lib/Astrobj.C:1669-1719`): the index and the possibly modified `xq`. The third parameter is an `int`
stored in a `double`. -/
noncomputable def getIndice (xq : ℝ) (cond : Cond) (xmin xmax : ℝ) (n : Nat) (X : Option (List ℝ)) : Out (Int × ℝ) :=
  if n = 1 ∧ (cond = .linear ∨ cond = .periodic) then .error .thrown
  else if n = 1 then .ok (0, xq)
  else
    let dx := (xmax - xmin) / ((n : ℝ) - 1)
    if xq < xmin ∨ xq > xmax then
      match cond with
      | .none => .error .thrown
      | .periodic =>
        if xmax = 0 then .error .ub
        else
          let xq' := if xq > xmax then fmod xq xmax + xmin else fmod xq xmax + xmin + xmax
          (floorInt (xq' - xmin) dx).map fun i => (i, xq')
      | .constant | .linear => if xq < xmin then .ok (0, xq) else .ok ((n : Int) - 2, xq)
      | .null => .ok (-1, xq)
      | .other => .error .thrown
    else
      match X with
      | some X => (search xq X n 0).map fun (i : Nat) => ((i : Int), xq)
      | .none => (floorInt (xq - xmin) dx).map fun i => (i, xq)

/-- One dimension of a table: the coordinates of its nodes (first overload of `interpolate`), or the first and last coordinates
and the number of regularly spaced nodes (second overload). -/
inductive Axis where
  | nodes (X : List ℝ)
  | regular (xmin xmax : ℝ) (n : Nat)

/-- `X_lengths[n]` (the length of the array), `X_params[n][2]`. -/
def Axis.len : Axis → Nat
  | .nodes X => X.length
  | .regular _ _ n => n

/-- `lib/Astrobj.C:1725-1727`, `lib/Astrobj.C:1781-1782`. -/
noncomputable def Axis.index (xq : ℝ) (cond : Cond) : Axis → Out (Int × ℝ)
  | .nodes X => do
    let xmin ← get X 0
    let xmax ← geti X ((X.length : Int) - 1)
    getIndice xq cond xmin xmax X.length (some X)
  | .regular xmin xmax n => getIndice xq cond xmin xmax n .none

/-- `lib/Astrobj.C:1749`, `lib/Astrobj.C:1802-1806` (with one node the step is infinite or not a number, and zero times it is not
a number). -/
noncomputable def Axis.node (k : Int) : Axis → Out ℝ
  | .nodes X => geti X k
  | .regular xmin xmax n => if n = 1 then .error .nan else .ok (xmin + k * ((xmax - xmin) / ((n : ℝ) - 1)))

/-- One corner of the cell: the offsets along each dimension and the coordinates (`lib/Astrobj.C:1738-1755`,
`lib/Astrobj.C:1793-1810`), for the first `n` dimensions. -/
noncomputable def corner (axes : List Axis) (indices : List Int) : Nat → Nat → Out (List Nat × List ℝ)
  | 0, _ => .ok ([], [])
  | n + 1, ind => do
    let b := ind / 2 ^ n
    if b ≠ 0 ∧ b ≠ 1 then .error .thrown
    else
      let ax ← get axes n
      let k ← get indices n
      let tab := if ax.len = 1 then 0 else b
      if k = -1 then .error .zero
      else
        let x ← ax.node (k + tab)
        let r ← corner axes indices n (ind - b * 2 ^ n)
        .ok (r.1 ++ [tab], r.2 ++ [x])

/-- `prod_len` (`lib/Astrobj.C:1759-1762`). -/
def prodLen (axes : List Axis) (N n : Nat) : Nat := ((axes.take N).drop (n + 1)).foldl (fun p ax => p * ax.len) 1

/-- `ind_Y` (`lib/Astrobj.C:1757-1764`). -/
def indY (axes : List Axis) (indices : List Int) (tab : List Nat) (N : Nat) : Out Int :=
  (List.range N).foldlM (fun ind n => do
    let k ← get indices n
    let b ← get tab n
    .ok (ind + (k + b) * (prodLen axes N n : Int))) 0

/-- `Generic::interpolate`, both overloads (`lib/Astrobj.C:1721-1776`, `lib/Astrobj.C:1778-1832`). Returns the value and the
modified query. -/
noncomputable def interpolate (N : Nat) (array Xq : List ℝ) (axes : List Axis) (cond : List Cond) : Out (ℝ × List ℝ) := do
  let found ← (List.range N).mapM fun ii => do
    let xq ← get Xq ii
    let c ← get cond ii
    let ax ← get axes ii
    ax.index xq c
  let indices := found.map Prod.fst
  let Xq' := found.map Prod.snd ++ Xq.drop N
  let corners := (List.range (2 ^ N)).mapM fun ii => do
    let r ← corner axes indices N ii
    let y ← geti array (← indY axes indices r.1 N)
    .ok (r.2, y)
  match corners with
  | .error .zero => .ok (0, Xq')
  | .error e => .error e
  | .ok cs => do
    let v ← interpNd N Xq' (cs.map Prod.fst) (cs.map Prod.snd) cond
    .ok (v, Xq')

/-! ## `GridData2D` -/

/-- The members of `GridData2D` (`include/GyotoGridData2D.h:40-60`). -/
structure Grid where
  (phimin phimax dphi : ℝ)
  (tmin tmax dt : ℝ)
  (rmin rmax dr : ℝ)
  (nphi nt nr : Nat)

/-- `size_t(floor(v/dx))`: undefined when it does not fit. -/
noncomputable def floorSize (v dx : ℝ) : Out Nat :=
  if dx = 0 then .error .ub
  else if 0 ≤ ⌊v / dx⌋ ∧ ⌊v / dx⌋ < 2 ^ 64 then .ok ⌊v / dx⌋.toNat else .error .ub

/-- `DBL_MAX`. -/
noncomputable def dblMax : ℝ := (2 - 1 / 2 ^ 52) * 2 ^ 1023

/-- Radius (`lib/GridData2D.C:343-348`). -/
noncomputable def Grid.indexR (g : Grid) (rr : ℝ) : Out Nat :=
  if g.rmin > 0 ∧ g.rmax < dblMax ∧ g.nr > 0 ∧ g.dr > 0 then floorSize (rr - g.rmin) g.dr else .error .thrown

/-- Azimuth (`lib/GridData2D.C:352-365`). -/
noncomputable def Grid.indexPhi (g : Grid) (phi : ℝ) : Out Nat :=
  if g.nphi > 0 then
    if g.dphi > 0 then
      if phi < g.phimin then .ok (g.nphi - 1)
      else if phi > g.phimax then .ok (g.nphi - 1)
      else floorSize (phi - g.phimin) g.dphi
    else .ok 0
  else .error .thrown

/-- Time (`lib/GridData2D.C:368-389`). -/
noncomputable def Grid.indexT (g : Grid) (tt : ℝ) (times : Option (List ℝ)) : Out Nat :=
  if g.nt > 0 then
    if g.tmin > -dblMax ∧ g.tmax < dblMax then
      if tt < g.tmin then .ok 0
      else if tt > g.tmax then .ok (g.nt - 1)
      else
        match times with
        | .none => floorSize (tt - g.tmin) g.dt
        | some T => search tt T g.nt 0
    else if g.dt = 0 ∧ g.tmin = g.tmax then .ok 0
    else .error .thrown
  else .error .thrown

/-- The two rows in azimuth and their coordinates (`lib/GridData2D.C:407-429`); `pi` is `M_PI`. -/
noncomputable def Grid.rows (g : Grid) (pi phi : ℝ) (i1 : Nat) : Nat × Nat × ℝ × ℝ :=
  if phi < g.phimin then (g.nphi - 1, 0, g.phimax - 2 * pi, g.phimin)
  else if phi > g.phimax then (g.nphi - 1, 0, g.phimax, g.phimin + 2 * pi)
  else (i1, i1 + 1, g.phimin + g.dphi * i1, g.phimin + g.dphi * ((i1 + 1 : Nat) : ℝ))

/-- `(x-l)/(u-l)` -/
noncomputable def ratio (x l u : ℝ) : Out ℝ := if u - l = 0 then .error .nan else .ok ((x - l) / (u - l))

/-- `array[it*nr_*nphi_+iphi*nr_+ir]` -/
def Grid.at (g : Grid) (array : List ℝ) (it iphi ir : Nat) : Out ℝ := get array (it * g.nr * g.nphi + iphi * g.nr + ir)

/-- The dates of the two ends of the cell (`lib/GridData2D.C:467-473`). -/
noncomputable def Grid.dates (g : Grid) (times : Option (List ℝ)) (i0 : Nat) : Out (ℝ × ℝ) :=
  match times with
  | some T => do .ok (← get T i0, ← get T (i0 + 1))
  | .none => .ok (g.tmin + g.dt * i0, g.rmin + g.dt * ((i0 + 1 : Nat) : ℝ))

/-- `GridData2D::interpolate` (`lib/GridData2D.C:393-503`). -/
noncomputable def Grid.interpolate (g : Grid) (pi tt phi rcyl : ℝ) (array : List ℝ) (times : Option (List ℝ)) : Out ℝ := do
  let i2 ← g.indexR rcyl
  let i1 ← g.indexPhi phi
  let i0 ← g.indexT tt times
  if g.nphi = 1 then .error .thrown
  else
    let (iphil, iphiu, phil, phiu) := g.rows pi phi i1
    let rl := g.rmin + g.dr * i2
    let ru := g.rmin + g.dr * ((i2 + 1 : Nat) : ℝ)
    if g.nt = 1 ∨ tt ≤ g.tmin ∨ tt ≥ g.tmax then
      let ll ← g.at array i0 iphil i2
      let lu ← g.at array i0 iphil (i2 + 1)
      let ul ← g.at array i0 iphiu i2
      let uu ← g.at array i0 iphiu (i2 + 1)
      let p ← ratio phi phil phiu
      let q ← ratio rcyl rl ru
      if p < 0 ∨ q < 0 then .error .thrown
      else .ok (ll + (ul - ll) * p + (lu - ll) * q + (uu - lu - ul + ll) * p * q)
    else
      let lll ← g.at array i0 iphil i2
      let llu ← g.at array i0 iphil (i2 + 1)
      let lul ← g.at array i0 iphiu i2
      let luu ← g.at array i0 iphiu (i2 + 1)
      let ull ← g.at array (i0 + 1) iphil i2
      let ulu ← g.at array (i0 + 1) iphil (i2 + 1)
      let uul ← g.at array (i0 + 1) iphiu i2
      let uuu ← g.at array (i0 + 1) iphiu (i2 + 1)
      let (tl, tu) ← g.dates times i0
      let s ← ratio tt tl tu
      let p ← ratio phi phil phiu
      let q ← ratio rcyl rl ru
      if s < 0 ∨ p < 0 ∨ q < 0 then .error .thrown
      else .ok (lll + (ull - lll) * s + (lul - lll) * p + (llu - lll) * q
        + (uul - lul - ull + lll) * s * p
        + (luu - lul - llu + lll) * p * q
        + (ulu - llu - ull + lll) * s * q
        + (uuu - luu - ulu - uul + ull + llu + lul - lll) * s * p * q)

end Gyoto.Interp
