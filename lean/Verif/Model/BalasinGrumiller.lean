import Verif.Lemmas.Circular

/-!
# The Balasin-Grumiller metric (`lib/BalasinGrumiller.C`)

Doubles are reals; a division by zero is excluded by the hypotheses of the theorems.
-/

namespace Gyoto.BalasinGrumiller

open Gyoto.MetricAlg Gyoto.KerrBL

/-- `V0value_`, `Rvalue_`, `r0value_`. -/
structure Params where
  V0 : ℝ
  R : ℝ
  r0 : ℝ

/-- `W` (`lib/BalasinGrumiller.C:78-81` and `115-118`). -/
noncomputable def W (m : Params) (r theta : ℝ) : ℝ :=
  (m.R - m.r0) * m.V0 + (m.V0 * (-√(m.R * m.R + r * r - 2 * m.R * r * Real.cos theta)
    - √(m.R * m.R + r * r + 2 * m.R * r * Real.cos theta)
    + √(m.r0 * m.r0 + r * r - 2 * m.r0 * r * Real.cos theta)
    + √(m.r0 * m.r0 + r * r + 2 * m.r0 * r * Real.cos theta))) / 2

/-- `DWDr` (`lib/BalasinGrumiller.C:120-123`). -/
noncomputable def DWDr (m : Params) (r theta : ℝ) : ℝ :=
  (m.V0 * (-(r - m.R * Real.cos theta) / √(m.R * m.R + r * r - 2 * m.R * r * Real.cos theta)
    - (r + m.R * Real.cos theta) / √(m.R * m.R + r * r + 2 * m.R * r * Real.cos theta)
    + (r - m.r0 * Real.cos theta) / √(m.r0 * m.r0 + r * r - 2 * m.r0 * r * Real.cos theta)
    + (r + m.r0 * Real.cos theta) / √(m.r0 * m.r0 + r * r + 2 * m.r0 * r * Real.cos theta))) / 2

/-- `DWDth` (`lib/BalasinGrumiller.C:125-129`). -/
noncomputable def DWDth (m : Params) (r theta : ℝ) : ℝ :=
  (m.V0 * m.R * r * Real.sin theta * (
    1 / √(m.R * m.R + r * r - 2 * m.R * r * Real.cos theta)
    - 1 / √(m.R * m.R + r * r + 2 * m.R * r * Real.cos theta)
    - 1 / √(m.r0 * m.r0 + r * r - 2 * m.r0 * r * Real.cos theta)
    + 1 / √(m.r0 * m.r0 + r * r + 2 * m.r0 * r * Real.cos theta))) / 2

/-- `gmunu(g, pos)` (`lib/BalasinGrumiller.C:74-104`). -/
noncomputable def gmunu (m : Params) (pos : Vec) : Tensor :=
  let r := pos 1
  let theta := pos 2
  let w := W m r theta
  circ (-1) 1 (r * r) (r * r * Real.sin theta * Real.sin theta - w * w) w

/-- What `christoffel(dst, pos)` computes from `W`, `DWDr` and `DWDth` (`lib/BalasinGrumiller.C:132-145`). -/
noncomputable def symbols (r s c w wr wt : ℝ) : Fin 4 → Tensor :=
  let d001 := (wr * w) / (2 * r * r * s * s)
  let d002 := (wt * w) / (2 * r * r * s * s)
  let d013 := -0.5 * (-2 * w * r + wr * r * r + wr * w * w / (s * s)) / (r * r)
  let d023 := -0.5 * wt + w * c / s - (wt * w * w) / (2 * r * r * s * s)
  let d103 := -0.5 * wr
  let d122 := -r
  let d133 := wr * w - r * s * s
  let d203 := -0.5 * wt / (r * r)
  let d212 := 1 / r
  let d233 := (wt * w) / (r * r) - c * s
  let d301 := wr / (2 * r * r * s * s)
  let d302 := wt / (2 * r * r * s * s)
  let d313 := 1 / r - (wr * w) / (2 * r * r * s * s)
  let d323 := c / s - (wt * w) / (2 * r * r * s * s)
  ![![![0, d001, d002, 0], ![d001, 0, 0, d013], ![d002, 0, 0, d023], ![0, d013, d023, 0]],
    ![![0, 0, 0, d103], ![0, 0, 0, 0], ![0, 0, d122, 0], ![d103, 0, 0, d133]],
    ![![0, 0, 0, d203], ![0, 0, d212, 0], ![0, d212, 0, 0], ![d203, 0, 0, d233]],
    ![![0, d301, d302, 0], ![d301, 0, 0, d313], ![d302, 0, 0, d323], ![0, d313, d323, 0]]]

/-- `christoffel(dst, pos)` (`lib/BalasinGrumiller.C:106-149`). -/
noncomputable def christoffel (m : Params) (pos : Vec) : Fin 4 → Tensor :=
  let r := pos 1
  let theta := pos 2
  symbols r (Real.sin theta) (Real.cos theta) (W m r theta) (DWDr m r theta) (DWDth m r theta)

end Gyoto.BalasinGrumiller
