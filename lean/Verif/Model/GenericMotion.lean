import Verif.Model.MetricAlg

/-!
# Motion with the generic integrator (`lib/Metric.C`)

Doubles are reals.  A `state_t` is its size and its elements; the elements of a new one are zeros.  Loops of `+=` and `-=` are sums.
-/

namespace Gyoto.GenericMotion

open Gyoto.MetricAlg

/-- `christoffel(dst, x)` computed from `gmunu_up_and_jacobian` (`lib/Metric.C:440-456`): for `nu ≥ mu` the sum, then the copy. -/
noncomputable def connection (gup : Tensor) (jac : Fin 4 → Tensor) : Fin 4 → Tensor := fun a mu nu =>
  let coef (mu nu : Fin 4) : ℝ := ∑ i, 0.5 * gup i a * (jac mu i nu + jac nu mu i - jac i mu nu)
  if mu ≤ nu then coef mu nu else coef nu mu

/-- What `diff` does: throw, return a code other than 0, or return 0 with the new content of `dxdt`. -/
inductive DiffOut where
  | error
  | code (ret : Int)
  | ok (dxdt : Nat → ℝ)

/-- `diff(x, dxdt, mass)` (`lib/Metric.C:478-504`).  `chr` is `christoffel(dst, x)`, its code and `dst`; `n` and `m` are the sizes
of `x` and `dxdt`. -/
noncomputable def diff (chr : (Nat → ℝ) → Int × (Fin 4 → Tensor)) (n m : Nat) (x dxdt : Nat → ℝ) : DiffOut :=
  if n < 8 then .error
  else if n ≠ m then .error
  else if x 4 < 1e-6 then .code 1
  else
    let nvec := (n - 4) / 4
    let (retval, dst) := chr x
    if retval ≠ 0 then .code retval
    else .ok fun k =>
      if k < 4 then x (k + 4)
      else
        let v := k / 4
        if v ≤ nvec then
          let alpha : Fin 4 := Fin.ofNat 4 k
          0 - ∑ i : Fin 4, ∑ j : Fin 4, dst alpha i j * x (4 + i) * x (v * 4 + j)
        else dxdt k

/-- What `myrk4` does. -/
inductive RkOut where
  | error
  | failed
  | ok (res : Nat → ℝ)

/-- `myrk4(line, coord, h, res)` (`lib/Metric.C:508-565`).  `f n m x dxdt` is the virtual method `diff`; `n` is `coord.size()`. -/
noncomputable def myrk4 (f : Nat → Nat → (Nat → ℝ) → (Nat → ℝ) → DiffOut) (n : Nat) (coord : Nat → ℝ) (h : ℝ) (res : Nat → ℝ) : RkOut :=
  match f n n coord (fun _ => 0) with
  | .error => .error
  | .code _ => .failed
  | .ok k1 =>
    let k1 := fun i => if i < 8 then h * k1 i else k1 i
    let plus1 := fun i => if i < 8 then coord i + 0.5 * k1 i else 0
    let sixth1 := fun i => if i < 8 then 1 / 6 * k1 i else 0
    match f n n plus1 (fun _ => 0) with
    | .error => .error
    | .code _ => .failed
    | .ok k2 =>
      let k2 := fun i => if i < 8 then h * k2 i else k2 i
      let plus2 := fun i => if i < 8 then coord i + 0.5 * k2 i else 0
      let third2 := fun i => if i < 8 then 1 / 3 * k2 i else 0
      match f n n plus2 (fun _ => 0) with
      | .error => .error
      | .code _ => .failed
      | .ok k3 =>
        let k3 := fun i => if i < 8 then h * k3 i else k3 i
        let plus3 := fun i => if i < 8 then coord i + k3 i else 0
        let third3 := fun i => if i < 8 then 1 / 3 * k3 i else 0
        match f n n plus3 (fun _ => 0) with
        | .error => .error
        | .code _ => .failed
        | .ok k4 =>
          let k4 := fun i => if i < 8 then h * k4 i else k4 i
          let sixth4 := fun i => if i < 8 then 1 / 6 * k4 i else 0
          .ok fun i => if i < 8 then coord i + sixth1 i + third2 i + third3 i + sixth4 i else res i

end Gyoto.GenericMotion
