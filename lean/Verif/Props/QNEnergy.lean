import Verif.Props.QuasiNewton
import Mathlib.Algebra.Module.LinearMap.Defs
import Mathlib.LinearAlgebra.BilinearMap
import Mathlib.LinearAlgebra.Prod
import Mathlib.Tactic.Module
import Mathlib.Tactic.Linarith

set_option autoImplicit false
set_option linter.unusedSectionVars false
set_option linter.unusedSimpArgs false

/-!
# C119: energy of linear waves under the semi-implicit quasi-Newton timestepper
-/

namespace Gusto.Props.QNEnergyProps
open Gusto QN Gusto.Props.QNProps

section
variable {ι : Type*} [DecidableEq ι] {K : Type*} [Field K] [LinearOrder K] [IsStrictOrderedRing K] {V : ι → Type*}
  [∀ i, AddCommGroup (V i)] [∀ i, Module K (V i)]

/-- The linear wave equations `du/dt = -g(D) - c(u)`, `dD/dt = -h(u)` (linear shallow water: `g(D) = g grad D`, `h(u) = H div u` and
the Coriolis term `c(u) = f perp(u)`), set up as `SemiImplicitQuasiNewton` does: pressure gradient and Coriolis term are off-centred
forcings, the divergence is the transport of the depth and
sees the transporting velocity `ubar`.  There is no physics, and the boundary conditions hold for the solution. -/
structure IsWave (m : Siqn K V) (d : ι) (g : V d →ₗ[K] V m.u) (h : V m.u →ₗ[K] V d) (c : V m.u →ₗ[K] V m.u) (alpha dt : K) : Prop where
  ne : d ≠ m.u
  wind : m.inSolver m.u = true
  depth : m.inSolver d = true
  slow : m.slow = []
  fast : m.fast = []
  inner : m.inner = []
  forceE_u : ∀ x, m.forceE x m.u = -((1 - alpha) * dt) • (g (x d) + c (x m.u))
  forceI_u : ∀ x, m.forceI x m.u = -(alpha * dt) • (g (x d) + c (x m.u))
  forceE_d : ∀ x, m.forceE x d = 0
  forceI_d : ∀ x, m.forceI x d = 0
  transport : ∃ f : V m.u → (∀ i, V i) → ∀ i, V i, m.transport = [⟨[d], f⟩] ∧ ∀ vel x, f vel x d = x d - dt • h vel

/-- The rows of the time-discrete equations of a wave model. -/
theorem wave_rows (m : Siqn K V) (d : ι) (g : V d →ₗ[K] V m.u) (h : V m.u →ₗ[K] V d) (c : V m.u →ₗ[K] V m.u) (alpha dt : K)
    (hw : IsWave m d g h c alpha dt) (xn x : ∀ i, V i) (hx : IsSolution m xn x) :
    x m.u = xn m.u - dt • (g (alpha • x d + (1 - alpha) • xn d) + c (alpha • x m.u + (1 - alpha) • xn m.u)) ∧
    x d = xn d - dt • h (xn m.u + m.alphaU • (x m.u - xn m.u)) := by
  obtain ⟨f, hf, hstep⟩ := hw.transport
  have h1 := hx.eqn m.u hw.wind
  have h2 := hx.eqn d hw.depth
  have hn : ¬ m.u = d := fun e => hw.ne e.symm
  have su : xstarOf m xn m.u = xn m.u - ((1 - alpha) * dt) • (g (xn d) + c (xn m.u)) := by
    rw [C22_xstar]
    simp only [innerInc, hw.inner, hw.slow, applyAll, List.foldl_nil, List.map_nil, List.sum_nil, smul_zero, add_zero,
      Pi.add_apply, hw.forceE_u, Pi.zero_apply]
    module
  have sd : xstarOf m xn d = xn d := by
    rw [C22_xstar]
    simp only [innerInc, hw.inner, hw.slow, applyAll, List.foldl_nil, List.map_nil, List.sum_nil, smul_zero, add_zero,
      Pi.add_apply, hw.forceE_d, Pi.zero_apply]
  simp only [innerInc, hw.inner, hw.fast, applyAll, List.foldl_nil, List.map_nil, List.sum_nil, smul_zero, add_zero, Pi.zero_apply,
    hw.forceI_u, hw.forceI_d] at h1 h2
  constructor
  · simp only [hf, transported, List.reverse_singleton, List.find?_cons, List.find?_nil, List.mem_singleton, hn, decide_false,
      su] at h1
    conv_lhs => rw [h1]
    rw [map_add, map_smul, map_smul, map_add, map_smul, map_smul]
    module
  · rw [h2]
    simp only [hf, transported, List.reverse_singleton, List.find?_cons, List.find?_nil, List.mem_singleton, decide_true, hstep, sd]

/-- An energy for the wave equations: two symmetric forms for which the pressure gradient is minus the adjoint of the divergence
and the Coriolis term does no work.
For linear shallow water `bu` is `H` times the L2 product and `bd` is `g` times it. -/
structure IsWaveEnergy {U D : Type*} [AddCommGroup U] [Module K U] [AddCommGroup D] [Module K D] (g : D →ₗ[K] U) (h : U →ₗ[K] D)
    (c : U →ₗ[K] U) (bu : U →ₗ[K] U →ₗ[K] K) (bd : D →ₗ[K] D →ₗ[K] K) : Prop where
  symmU : ∀ v w, bu v w = bu w v
  symmD : ∀ v w, bd v w = bd w v
  adj : ∀ v p, bu v (g p) = -bd (h v) p
  skew : ∀ v w, bu v (c w) = -bu w (c v)

/-- C119: a converged timestep of `SemiImplicitQuasiNewton` on linear wave equations changes the energy by exactly
`-(2 alpha - 1)` times `‖D' - D‖²` and `-(2 alphaU - 1)` times `‖u' - u‖²`, and, with rotation, by `-2 dt (alpha - alphaU)` times the
work `⟨u, c(u')⟩` of the Coriolis term at the old wind with the new one. -/
theorem C119_energy_change (m : Siqn K V) (d : ι) (g : V d →ₗ[K] V m.u) (h : V m.u →ₗ[K] V d) (c : V m.u →ₗ[K] V m.u) (alpha dt : K)
    (hw : IsWave m d g h c alpha dt) (bu : V m.u →ₗ[K] V m.u →ₗ[K] K) (bd : V d →ₗ[K] V d →ₗ[K] K) (hB : IsWaveEnergy g h c bu bd)
    (xn x : ∀ i, V i) (hx : IsSolution m xn x) :
    bu (x m.u) (x m.u) + bd (x d) (x d) = bu (xn m.u) (xn m.u) + bd (xn d) (xn d) -
      (2 * alpha - 1) * bd (x d - xn d) (x d - xn d) - (2 * m.alphaU - 1) * bu (x m.u - xn m.u) (x m.u - xn m.u) -
      2 * dt * (alpha - m.alphaU) * bu (xn m.u) (c (x m.u)) := by
  obtain ⟨e1, e2⟩ := wave_rows m d g h c alpha dt hw xn x hx
  have k1 : x m.u - xn m.u = -(dt • (g (alpha • x d + (1 - alpha) • xn d) + c (alpha • x m.u + (1 - alpha) • xn m.u))) := by
    conv_lhs => rw [e1]
    abel
  have k2 : x d - xn d = -(dt • h (xn m.u + m.alphaU • (x m.u - xn m.u))) := by
    conv_lhs => rw [e2]
    abel
  have hc : bu (xn m.u + m.alphaU • (x m.u - xn m.u)) (x m.u - xn m.u) =
      -bd (x d - xn d) (alpha • x d + (1 - alpha) • xn d) -
        dt * bu (xn m.u + m.alphaU • (x m.u - xn m.u)) (c (alpha • x m.u + (1 - alpha) • xn m.u)) := by
    rw [k2]
    conv_lhs => rw [show bu (xn m.u + m.alphaU • (x m.u - xn m.u)) (x m.u - xn m.u) =
      bu (xn m.u + m.alphaU • (x m.u - xn m.u))
        (-(dt • (g (alpha • x d + (1 - alpha) • xn d) + c (alpha • x m.u + (1 - alpha) • xn m.u)))) from by rw [← k1]]
    rw [map_neg, map_smul, map_add, hB.adj]
    simp only [map_neg, map_smul, LinearMap.neg_apply, LinearMap.smul_apply, smul_eq_mul]
    ring
  simp only [map_sub, map_add, map_smul, LinearMap.sub_apply, LinearMap.add_apply, LinearMap.smul_apply, smul_eq_mul] at hc ⊢
  have s1 := hB.symmU (xn m.u) (x m.u)
  have s2 := hB.symmD (xn d) (x d)
  have z1 := hB.skew (xn m.u) (xn m.u)
  have z2 := hB.skew (x m.u) (x m.u)
  have z3 := hB.skew (x m.u) (xn m.u)
  rw [s1] at hc ⊢
  rw [s2] at hc ⊢
  linear_combination 2 * hc - dt * (1 - m.alphaU) * (1 - alpha) * z1 - dt * m.alphaU * alpha * z2 -
    2 * dt * m.alphaU * (1 - alpha) * z3

/-- C119: with centred weights, `alpha = 1/2` and `alphaU = 1/2` (the defaults), a converged timestep keeps the energy of linear
waves exactly, whatever the timestep. -/
theorem C119_centred (m : Siqn K V) (d : ι) (g : V d →ₗ[K] V m.u) (h : V m.u →ₗ[K] V d) (c : V m.u →ₗ[K] V m.u) (dt : K)
    (hw : IsWave m d g h c (1 / 2) dt) (ha : m.alphaU = 1 / 2) (bu : V m.u →ₗ[K] V m.u →ₗ[K] K) (bd : V d →ₗ[K] V d →ₗ[K] K)
    (hB : IsWaveEnergy g h c bu bd) (xn x : ∀ i, V i) (hx : IsSolution m xn x) :
    bu (x m.u) (x m.u) + bd (x d) (x d) = bu (xn m.u) (xn m.u) + bd (xn d) (xn d) := by
  rw [C119_energy_change m d g h c _ dt hw bu bd hB xn x hx, ha]
  ring

/-- C119: for any off-centring of at least one half the energy never grows (unconditional stability): with `off_centred_u` always,
without it in the absence of rotation. -/
theorem C119_off_centred (m : Siqn K V) (d : ι) (g : V d →ₗ[K] V m.u) (h : V m.u →ₗ[K] V d) (c : V m.u →ₗ[K] V m.u) (alpha dt : K)
    (hw : IsWave m d g h c alpha dt) (h1 : 1 / 2 ≤ alpha) (h2 : 1 / 2 ≤ m.alphaU)
    (hc : m.alphaU = alpha ∨ c = 0) (bu : V m.u →ₗ[K] V m.u →ₗ[K] K)
    (bd : V d →ₗ[K] V d →ₗ[K] K) (hB : IsWaveEnergy g h c bu bd) (pu : ∀ v, 0 ≤ bu v v) (pd : ∀ v, 0 ≤ bd v v)
    (xn x : ∀ i, V i) (hx : IsSolution m xn x) :
    bu (x m.u) (x m.u) + bd (x d) (x d) ≤ bu (xn m.u) (xn m.u) + bd (xn d) (xn d) := by
  rw [C119_energy_change m d g h c alpha dt hw bu bd hB xn x hx]
  have := mul_nonneg (by linarith : 0 ≤ 2 * alpha - 1) (pd (x d - xn d))
  have := mul_nonneg (by linarith : 0 ≤ 2 * m.alphaU - 1) (pu (x m.u - xn m.u))
  have hz : 2 * dt * (alpha - m.alphaU) * bu (xn m.u) (c (x m.u)) = 0 := by
    rcases hc with e | e
    · rw [e]; ring
    · rw [e]; simp
  linarith

/-- C119: with `off_centred_u` and `alpha > 1/2` every motion is damped, also in the presence of rotation: the energy stays only if
the state does. -/
theorem C119_all_damped (m : Siqn K V) (d : ι) (g : V d →ₗ[K] V m.u) (h : V m.u →ₗ[K] V d) (c : V m.u →ₗ[K] V m.u) (alpha dt : K)
    (hw : IsWave m d g h c alpha dt) (h1 : 1 / 2 < alpha) (ha : m.alphaU = alpha) (bu : V m.u →ₗ[K] V m.u →ₗ[K] K)
    (bd : V d →ₗ[K] V d →ₗ[K] K) (hB : IsWaveEnergy g h c bu bd) (pu : ∀ v, v ≠ 0 → 0 < bu v v) (pd : ∀ v, v ≠ 0 → 0 < bd v v)
    (xn x : ∀ i, V i) (hx : IsSolution m xn x) :
    bu (x m.u) (x m.u) + bd (x d) (x d) = bu (xn m.u) (xn m.u) + bd (xn d) (xn d) ↔ x m.u = xn m.u ∧ x d = xn d := by
  rw [C119_energy_change m d g h c alpha dt hw bu bd hB xn x hx, ha]
  have nu : 0 ≤ bu (x m.u - xn m.u) (x m.u - xn m.u) := by
    by_cases e : x m.u - xn m.u = 0
    · simp [e]
    · exact (pu _ e).le
  have nd : 0 ≤ bd (x d - xn d) (x d - xn d) := by
    by_cases e : x d - xn d = 0
    · simp [e]
    · exact (pd _ e).le
  have hp : 0 < 2 * alpha - 1 := by linarith
  constructor
  · intro he
    rw [sub_self, mul_zero, zero_mul, sub_zero] at he
    constructor
    · by_contra hne
      have := mul_pos hp (pu (x m.u - xn m.u) (sub_ne_zero.2 hne))
      have := mul_nonneg hp.le nd
      linarith
    · by_contra hne
      have := mul_pos hp (pd (x d - xn d) (sub_ne_zero.2 hne))
      have := mul_nonneg hp.le nu
      linarith
  · rintro ⟨e1, e2⟩
    rw [e1, e2]
    simp

/-- C119 (no rotation): the energy changes whenever the depth does, if the pressure gradient is off-centred but the transporting velocity is not
(`alpha > 1/2` without `off_centred_u`, the usual choice): only the depth increment is damped.  A rotational wind, which
does not move the depth, is not damped at all. -/
theorem C119_only_divergence_damped (m : Siqn K V) (d : ι) (g : V d →ₗ[K] V m.u) (h : V m.u →ₗ[K] V d) (alpha dt : K)
    (hw : IsWave m d g h 0 alpha dt) (h1 : 1 / 2 < alpha) (ha : m.alphaU = 1 / 2) (bu : V m.u →ₗ[K] V m.u →ₗ[K] K)
    (bd : V d →ₗ[K] V d →ₗ[K] K) (hB : IsWaveEnergy g h 0 bu bd) (pd : ∀ v, v ≠ 0 → 0 < bd v v)
    (xn x : ∀ i, V i) (hx : IsSolution m xn x) :
    bu (x m.u) (x m.u) + bd (x d) (x d) = bu (xn m.u) (xn m.u) + bd (xn d) (xn d) ↔ x d = xn d := by
  rw [C119_energy_change m d g h 0 alpha dt hw bu bd hB xn x hx, ha, LinearMap.zero_apply, map_zero, mul_zero, sub_zero]
  constructor
  · intro he
    by_contra hne
    have := mul_pos (by linarith : 0 < 2 * alpha - 1) (pd (x d - xn d) (sub_ne_zero.2 hne))
    linarith
  · intro he
    rw [he]
    simp

/-- C119 (no rotation): `alpha < 1/2` makes the energy grow whenever the depth changes. -/
theorem C119_below_half_grows (m : Siqn K V) (d : ι) (g : V d →ₗ[K] V m.u) (h : V m.u →ₗ[K] V d) (alpha dt : K)
    (hw : IsWave m d g h 0 alpha dt) (h1 : alpha < 1 / 2) (ha : m.alphaU = 1 / 2) (bu : V m.u →ₗ[K] V m.u →ₗ[K] K)
    (bd : V d →ₗ[K] V d →ₗ[K] K) (hB : IsWaveEnergy g h 0 bu bd) (pd : ∀ v, v ≠ 0 → 0 < bd v v)
    (xn x : ∀ i, V i) (hx : IsSolution m xn x) (hne : x d ≠ xn d) :
    bu (xn m.u) (xn m.u) + bd (xn d) (xn d) < bu (x m.u) (x m.u) + bd (x d) (x d) := by
  rw [C119_energy_change m d g h 0 alpha dt hw bu bd hB xn x hx, ha, LinearMap.zero_apply, map_zero, mul_zero, sub_zero]
  have := mul_pos (by linarith : 0 < 1 - 2 * alpha) (pd (x d - xn d) (sub_ne_zero.2 hne))
  linarith

end

/-! ### The iterations themselves are exact for linear waves -/
section exact
variable {ι : Type*} [DecidableEq ι] {K : Type*} [Field K] [LinearOrder K] [IsStrictOrderedRing K] {V : ι → Type*}
  [∀ i, AddCommGroup (V i)] [∀ i, Module K (V i)]

/-- The linear solver of a wave model: all fields are solved for, the linearised terms are the pressure gradient and the divergence,
and `tau` is the off-centring parameter. -/
structure IsWaveSolver (m : Siqn K V) (d : ι) (g : V d →ₗ[K] V m.u) (h : V m.u →ₗ[K] V d) (c : V m.u →ₗ[K] V m.u) (alpha dt : K) : Prop where
  two : ∀ i, i = m.u ∨ i = d
  row_u : ∀ r, m.solve r m.u + (alpha * dt) • (g (m.solve r d) + c (m.solve r m.u)) = r m.u
  row_d : ∀ r, m.solve r d + (alpha * dt) • h (m.solve r m.u) = r d

/-- `IsWaveSolver` is what the assembled linear system of `QuasiNewtonLinearSolver` says. -/
theorem C119_wave_solver (m : Siqn K V) (d : ι) (g : V d →ₗ[K] V m.u) (h : V m.u →ₗ[K] V d) (c : V m.u →ₗ[K] V m.u) (alpha dt : K)
    (two : ∀ i, i = m.u ∨ i = d) (lin : ∀ i, (∀ j, V j) → V i) (hu : ∀ y, lin m.u y = g (y d) + c (y m.u)) (hd : ∀ y, lin d y = h (y m.u))
    (hs : Solves (fun _ => true) (fun _ v => v) lin (fun _ _ => 0) (fun _ => alpha) dt m.solve) :
    IsWaveSolver m d g h c alpha dt where
  two := two
  row_u := fun r => by
    have := congrFun (hs r) m.u
    simpa [linearForm, linearRhs, zeroNonPrognostics, hu] using this
  row_d := fun r => by
    have := congrFun (hs r) d
    simpa [linearForm, linearRhs, zeroNonPrognostics, hd] using this

theorem wave_unique {U D : Type*} [AddCommGroup U] [Module K U] [AddCommGroup D] [Module K D] (g : D →ₗ[K] U) (h : U →ₗ[K] D)
    (c : U →ₗ[K] U) (bu : U →ₗ[K] U →ₗ[K] K) (bd : D →ₗ[K] D →ₗ[K] K) (hB : IsWaveEnergy g h c bu bd) (pu : ∀ v, v ≠ 0 → 0 < bu v v)
    (pd : ∀ v, v ≠ 0 → 0 < bd v v) (k : K) (y : U) (z : D) (h1 : y + k • (g z + c y) = 0) (h2 : z + k • h y = 0) : y = 0 ∧ z = 0 := by
  have e1 : bu y y = k * bd (h y) z := by
    have := congrArg (bu y) h1
    have sk := hB.skew y y
    rw [map_add, map_smul, map_add, hB.adj, map_zero, smul_eq_mul] at this
    linear_combination this - (k / 2) * sk
  have e2 : bd z z = -(k * bd (h y) z) := by
    have := congrArg (bd z) h2
    rw [map_add, map_smul, map_zero, smul_eq_mul, hB.symmD z (h y)] at this
    linear_combination this
  have nu : 0 ≤ bu y y := by
    by_cases hy : y = 0
    · simp [hy]
    · exact (pu y hy).le
  have nd : 0 ≤ bd z z := by
    by_cases hz : z = 0
    · simp [hz]
    · exact (pd z hz).le
  constructor
  · by_contra hy
    have := pu y hy
    linarith
  · by_contra hz
    have := pd z hz
    linarith

/-- C119: for linear waves the quasi-Newton iteration is not an iteration: with the linear solver at hand one outer iteration gives
the solution of the time-discrete equations from any initial guess, and further outer iterations, and accelerated inner iterations,
keep it. -/
theorem C119_one_iteration_exact (m : Siqn K V) (d : ι) (g : V d →ₗ[K] V m.u) (h : V m.u →ₗ[K] V d) (c : V m.u →ₗ[K] V m.u) (alpha dt : K)
    (hw : IsWave m d g h c alpha dt) (hsol : IsWaveSolver m d g h c alpha dt) (ha : m.alphaU = alpha) (hb : ∀ y, m.bcs y = y)
    (hk : m.numInner = 1 ∨ (m.accelerator = true ∧ 0 < m.numInner)) (hn : 0 < m.numOuter)
    (bu : V m.u →ₗ[K] V m.u →ₗ[K] K) (bd : V d →ₗ[K] V d →ₗ[K] K) (hB : IsWaveEnergy g h c bu bd) (pu : ∀ v, v ≠ 0 → 0 < bu v v)
    (pd : ∀ v, v ≠ 0 → 0 < bd v v) (xn x0 : ∀ i, V i) : IsSolution m xn (outerLoop m xn x0).2 := by
  obtain ⟨f, hf, hstep⟩ := hw.transport
  have hne : ¬ m.u = d := fun e => hw.ne e.symm
  have hon : ∀ i, m.inSolver i = true := fun i => by
    rcases hsol.two i with e | e
    · rw [e]; exact hw.wind
    · rw [e]; exact hw.depth
  have su : xstarOf m xn m.u = xn m.u - ((1 - alpha) * dt) • (g (xn d) + c (xn m.u)) := by
    rw [C22_xstar]
    simp only [innerInc, hw.inner, hw.slow, applyAll, List.foldl_nil, List.map_nil, List.sum_nil, smul_zero, add_zero,
      Pi.add_apply, hw.forceE_u, Pi.zero_apply]
    module
  have sd : xstarOf m xn d = xn d := by
    rw [C22_xstar]
    simp only [innerInc, hw.inner, hw.slow, applyAll, List.foldl_nil, List.map_nil, List.sum_nil, smul_zero, add_zero,
      Pi.add_apply, hw.forceE_d, Pi.zero_apply]
  have tu : ∀ vel, transported m.transport vel (xstarOf m xn) m.u = xn m.u - ((1 - alpha) * dt) • (g (xn d) + c (xn m.u)) := by
    intro vel
    simp only [hf, transported, List.reverse_singleton, List.find?_cons, List.find?_nil, List.mem_singleton, hne, decide_false, su]
  have td : ∀ vel, transported m.transport vel (xstarOf m xn) d = xn d - dt • h vel := by
    intro vel
    simp only [hf, transported, List.reverse_singleton, List.find?_cons, List.find?_nil, List.mem_singleton, decide_true, hstep, sd]
  -- solutions are the states that satisfy the two rows
  have solves_iff : ∀ x : ∀ i, V i, (x m.u = xn m.u - ((1 - alpha) * dt) • (g (xn d) + c (xn m.u)) - (alpha * dt) • (g (x d) + c (x m.u))) →
      (x d = xn d - dt • h (xn m.u + m.alphaU • (x m.u - xn m.u))) → IsSolution m xn x := by
    intro x h1 h2
    refine ⟨fun i _ => ?_, fun i hi => ?_, hb x⟩
    · simp only [innerInc, hw.inner, hw.fast, applyAll, List.foldl_nil, List.map_nil, List.sum_nil, smul_zero, add_zero,
        Pi.zero_apply]
      rcases hsol.two i with e | e
      · subst e
        rw [tu, hw.forceI_u]
        conv_lhs => rw [h1]
        module
      · subst e
        rw [td, hw.forceI_d, add_zero]
        exact h2
    · rw [hon i] at hi; cases hi
  obtain ⟨n, hn'⟩ := Nat.exists_eq_add_of_lt hn
  have hno : m.numOuter = n + 1 := by omega
  have hxp := xp_invariant m xn x0 n
  rw [outerLoop, hno, Function.iterate_succ_apply']
  generalize (outerStep m xn (xstarOf m xn))^[n] (xstarOf m xn, x0) = s at *
  rw [outerStep]
  simp only [hb]
  rw [transportFields_eq _ _ _ _ hxp]
  have hcopy : ∀ a b : ∀ i, V i, copyTracers (fun i => !m.inSolver i) a b = b := by
    intro a b; funext i; simp [copyTracers, hon i]
  rw [hcopy]
  have hfast : ∀ y : ∀ i, V i, applyAll m.fast y = y := by intro y; rw [hw.fast]; rfl
  simp only [hfast, sub_self]
  set vel := ubar m xn s.2 with hvel
  set xp := transported m.transport vel (xstarOf m xn) with hxpd
  -- the first inner iteration
  have r0 : xrhsOf m xp 0 0 s.2 = xp + m.forceI s.2 - s.2 := by
    rw [xrhsOf_plain m xp 0 0 s.2 (Or.inl rfl)]
    simp [innerInc, hw.inner]
  have first1 : innerStep m xp 0 0 s.2 m.u =
      xn m.u - ((1 - alpha) * dt) • (g (xn d) + c (xn m.u)) - (alpha * dt) • (g (innerStep m xp 0 0 s.2 d) + c (innerStep m xp 0 0 s.2 m.u)) := by
    have := hsol.row_u (xrhsOf m xp 0 0 s.2)
    rw [innerStep, Pi.add_apply, Pi.add_apply]
    rw [r0] at this ⊢
    rw [Pi.sub_apply, Pi.add_apply, hxpd, tu, hw.forceI_u] at this
    rw [← hxpd] at this
    rw [map_add, map_add]
    conv_lhs => rw [eq_sub_of_add_eq this]
    module
  have first2 : innerStep m xp 0 0 s.2 d = xn d - dt • h (xn m.u + m.alphaU • (innerStep m xp 0 0 s.2 m.u - xn m.u)) := by
    have := hsol.row_d (xrhsOf m xp 0 0 s.2)
    rw [innerStep, Pi.add_apply, Pi.add_apply]
    rw [r0] at this ⊢
    rw [Pi.sub_apply, Pi.add_apply, hxpd, td, hw.forceI_d] at this
    rw [← hxpd] at this
    rw [eq_sub_of_add_eq this, hvel, ubar, ha]
    simp only [map_add, map_sub, map_smul]
    module
  have hone : IsSolution m xn (innerStep m xp 0 0 s.2) := solves_iff _ first1 first2
  -- further accelerated iterations do nothing
  have keep : m.accelerator = true → ∀ k, 0 < k → innerStep m xp 0 k (innerStep m xp 0 0 s.2) = innerStep m xp 0 0 s.2 := by
    intro hacc k hk0
    set x1 := innerStep m xp 0 0 s.2 with hx1
    have ru : xrhsOf m xp 0 k x1 m.u = 0 := by
      rw [xrhsOf_accel m xp 0 k x1 hk0 hacc, if_pos rfl]
      simp only [innerInc, hw.inner, List.map_nil, List.sum_nil, smul_zero, add_zero, Pi.sub_apply, Pi.add_apply, Pi.zero_apply]
      rw [hxpd, tu, hw.forceI_u, sub_eq_zero, neg_smul, ← sub_eq_add_neg]
      exact first1.symm
    have rd : xrhsOf m xp 0 k x1 d = 0 := by
      rw [xrhsOf_accel m xp 0 k x1 hk0 hacc, if_neg hw.ne]
      simp [innerInc, hw.inner]
    obtain ⟨y0, z0⟩ := wave_unique g h c bu bd hB pu pd (alpha * dt) (m.solve (xrhsOf m xp 0 k x1) m.u)
      (m.solve (xrhsOf m xp 0 k x1) d) (by rw [hsol.row_u, ru]) (by rw [hsol.row_d, rd])
    have : m.solve (xrhsOf m xp 0 k x1) = 0 := by
      funext i
      rcases hsol.two i with e | e
      · subst e; exact y0
      · subst e; exact z0
    rw [innerStep, this, add_zero]
  have loop : ∀ N, 0 < N → (N = 1 ∨ m.accelerator = true) →
      (List.range N).foldl (fun x k => innerStep m xp 0 k x) s.2 = innerStep m xp 0 0 s.2 := by
    intro N hN hacc
    induction N with
    | zero => exact absurd hN (lt_irrefl 0)
    | succ N ih =>
      rw [List.range_succ, List.foldl_append, List.foldl_cons, List.foldl_nil]
      by_cases hN0 : N = 0
      · subst hN0; rfl
      · have hacc' : m.accelerator = true := by
          rcases hacc with e | e
          · omega
          · exact e
        rw [ih (Nat.pos_of_ne_zero hN0) (Or.inr hacc'), keep hacc' N (Nat.pos_of_ne_zero hN0)]
  have hN : (List.range m.numInner).foldl (fun x k => innerStep m xp 0 k x) s.2 = innerStep m xp 0 0 s.2 := by
    rcases hk with e | ⟨e, e'⟩
    · exact loop _ (by omega) (Or.inl e)
    · exact loop _ e' (Or.inr e)
  rw [hN]
  exact hone

/-- C119: so a whole run of the centred timestepper keeps the energy of linear waves, exactly and for every timestep, with any
number of outer iterations, any number of accelerated inner iterations and no tolerance for convergence. -/
theorem C119_run (m : Siqn K V) (d : ι) (g : V d →ₗ[K] V m.u) (h : V m.u →ₗ[K] V d) (c : V m.u →ₗ[K] V m.u) (dt : K)
    (hw : IsWave m d g h c (1 / 2) dt) (hsol : IsWaveSolver m d g h c (1 / 2) dt) (ha : m.alphaU = 1 / 2) (hb : ∀ y, m.bcs y = y)
    (hfin : m.final = []) (hk : m.numInner = 1 ∨ (m.accelerator = true ∧ 0 < m.numInner)) (hn : 0 < m.numOuter)
    (bu : V m.u →ₗ[K] V m.u →ₗ[K] K) (bd : V d →ₗ[K] V d →ₗ[K] K) (hB : IsWaveEnergy g h c bu bd) (pu : ∀ v, v ≠ 0 → 0 < bu v v)
    (pd : ∀ v, v ≠ 0 → 0 < bd v v) (n : ℕ) (x : ∀ i, V i) :
    let y := (fun x => timestep m x x)^[n] x
    bu (y m.u) (y m.u) + bd (y d) (y d) = bu (x m.u) (x m.u) + bd (x d) (x d) := by
  induction n with
  | zero => rfl
  | succ n ih =>
    simp only at ih ⊢
    rw [Function.iterate_succ_apply', ← ih]
    generalize (fun x => timestep m x x)^[n] x = z
    have hst : timestep m z z = (outerLoop m z z).2 := by rw [timestep, hfin]; rfl
    rw [hst]
    exact C119_centred m d g h c dt hw ha bu bd hB z _
      (C119_one_iteration_exact m d g h c (1 / 2) dt hw hsol ha hb hk hn bu bd hB pu pd z z)

end exact

/-! ### A two-cell periodic channel -/
section channel

/-- Two velocities (index 0) and two depths (index 1). -/
abbrev Chan : Fin 2 → Type := fun _ => ℚ × ℚ

/-- The difference across the cells, the pressure gradient. -/
def gradC : ℚ × ℚ →ₗ[ℚ] ℚ × ℚ where
  toFun p := (p.2 - p.1, p.1 - p.2)
  map_add' p q := by ext <;> simp <;> ring
  map_smul' c p := by ext <;> simp <;> ring

/-- The divergence, minus its adjoint. -/
def divC : ℚ × ℚ →ₗ[ℚ] ℚ × ℚ where
  toFun p := (p.1 - p.2, p.2 - p.1)
  map_add' p q := by ext <;> simp <;> ring
  map_smul' c p := by ext <;> simp <;> ring

/-- The dot product. -/
def dotC : ℚ × ℚ →ₗ[ℚ] ℚ × ℚ →ₗ[ℚ] ℚ :=
  LinearMap.mk₂ ℚ (fun p q => p.1 * q.1 + p.2 * q.2) (by intros; simp; ring) (by intros; simp; ring) (by intros; simp; ring)
    (by intros; simp; ring)

/-- Linear waves on the channel with `dt = 2`, centred; the solve inverts `y - c z`-type rows exactly. -/
def chanWave (nOuter nInner : ℕ) (acc : Bool) : Siqn ℚ Chan where
  u := 0
  inSolver := fun _ => true
  numOuter := nOuter
  numInner := nInner
  accelerator := acc
  alphaU := 1 / 2
  beta := 1
  slow := []
  fast := []
  inner := []
  final := []
  forceE := fun x i => if i = 0 then -((1 - 1 / 2) * 2 : ℚ) • gradC (x 1) else 0
  forceI := fun x i => if i = 0 then -((1 / 2) * 2 : ℚ) • gradC (x 1) else 0
  transport := [⟨[1], fun vel x i => x i - (2 : ℚ) • divC vel⟩]
  solve := fun r i =>
    let w := (((r 0).1 - (r 0).2) + 2 * ((r 1).1 - (r 1).2)) / 5
    let s := ((r 1).1 - (r 1).2) - 2 * w
    if i = 0 then ((r 0).1 + s, (r 0).2 - s) else ((r 1).1 - w, (r 1).2 + w)
  bcs := id

theorem chan_isWave (a b : ℕ) (c : Bool) : IsWave (chanWave a b c) 1 gradC divC 0 (1 / 2) 2 where
  ne := by simp [chanWave]
  wind := rfl
  depth := rfl
  slow := rfl
  fast := rfl
  inner := rfl
  forceE_u := fun x => by simp [chanWave]
  forceI_u := fun x => by simp [chanWave]
  forceE_d := fun x => rfl
  forceI_d := fun x => rfl
  transport := ⟨_, rfl, fun vel x => rfl⟩

theorem chan_isWaveSolver (a b : ℕ) (c : Bool) : IsWaveSolver (chanWave a b c) 1 gradC divC 0 (1 / 2) 2 where
  two := by
    intro i
    change i = 0 ∨ i = 1
    omega
  row_u := by
    intro r
    simp only [chanWave, gradC, if_true, Fin.isValue, one_ne_zero, if_false, LinearMap.coe_mk, AddHom.coe_mk]
    ext <;> simp <;> ring
  row_d := by
    intro r
    simp only [chanWave, divC, if_true, Fin.isValue, one_ne_zero, if_false, LinearMap.coe_mk, AddHom.coe_mk]
    ext <;> simp <;> ring

theorem chan_energy : IsWaveEnergy gradC divC 0 dotC dotC where
  symmU := by intro v w; simp [dotC]; ring
  symmD := by intro v w; simp [dotC]; ring
  adj := by intro v p; simp [dotC, gradC, divC]; ring
  skew := by intro v w; simp

theorem dotC_pos (v : ℚ × ℚ) (hv : v ≠ 0) : 0 < dotC v v := by
  have h1 := mul_self_nonneg v.1
  have h2 := mul_self_nonneg v.2
  simp only [dotC, LinearMap.mk₂_apply]
  by_contra hc
  apply hv
  have e1 : v.1 * v.1 = 0 := by linarith
  have e2 : v.2 * v.2 = 0 := by linarith
  exact Prod.ext (mul_self_eq_zero.1 e1) (mul_self_eq_zero.1 e2)

/-- Every run of the channel with the accelerator keeps the energy, and the state moves. -/
example (a b n : ℕ) (x : ∀ i, Chan i) :
    let y := (fun x => timestep (chanWave (a + 1) (b + 1) true) x x)^[n] x
    dotC (y 0) (y 0) + dotC (y 1) (y 1) = dotC (x 0) (x 0) + dotC (x 1) (x 1) :=
  C119_run _ 1 gradC divC 0 2 (chan_isWave _ _ _) (chan_isWaveSolver _ _ _) rfl (fun _ => rfl) rfl (Or.inr ⟨rfl, Nat.succ_pos _⟩)
    (Nat.succ_pos _) dotC dotC chan_energy dotC_pos dotC_pos n x

example : timestep (chanWave 2 2 true) (fun i => if i = 0 then (1, 2) else (3, 5)) (fun i => if i = 0 then (1, 2) else (3, 5)) 1 ≠
    ((3 : ℚ), (5 : ℚ)) := by decide +kernel

/-- The state of the channel used against the unaccelerated iteration. -/
def chanX (i : Fin 2) : Chan i := if i = 0 then (1, 2) else (3, 3)

/-- C119: without the accelerator a second inner iteration undoes the exactness: the energy of the channel grows. -/
theorem C119_unaccelerated_refuted :
    let y := timestep (chanWave 1 2 false) chanX chanX
    dotC (chanX 0) (chanX 0) + dotC (chanX 1) (chanX 1) < dotC (y 0) (y 0) + dotC (y 1) (y 1) := by
  have h0 : timestep (chanWave 1 2 false) chanX chanX 0 = (61 / 25, 14 / 25) := by decide +kernel
  have h1 : timestep (chanWave 1 2 false) chanX chanX 1 = (93 / 25, 57 / 25) := by decide +kernel
  have e0 : chanX 0 = (1, 2) := rfl
  have e1 : chanX 1 = (3, 3) := rfl
  simp only
  rw [h0, h1, e0, e1]
  simp only [dotC, LinearMap.mk₂_apply]
  norm_num

end channel

/-! ### Rotation -/
section rotation

/-- The gradient of the first depth. -/
def gradR : ℚ × ℚ →ₗ[ℚ] ℚ × ℚ where
  toFun p := (p.1, 0)
  map_add' p q := by ext <;> simp
  map_smul' c p := by ext <;> simp

/-- The divergence, minus its adjoint. -/
def divR : ℚ × ℚ →ₗ[ℚ] ℚ × ℚ where
  toFun p := (-p.1, 0)
  map_add' p q := by ext <;> simp; ring
  map_smul' c p := by ext <;> simp

/-- The Coriolis term `perp u`. -/
def perpR : ℚ × ℚ →ₗ[ℚ] ℚ × ℚ where
  toFun p := (-p.2, p.1)
  map_add' p q := by ext <;> simp; ring
  map_smul' c p := by ext <;> simp

/-- Waves with rotation, off-centring `alpha`, transporting velocity at `alphaU`; the solve inverts the rows exactly. -/
def rotWave (alpha alphaU dt : ℚ) (nOuter nInner : ℕ) : Siqn ℚ Chan where
  u := 0
  inSolver := fun _ => true
  numOuter := nOuter
  numInner := nInner
  accelerator := true
  alphaU := alphaU
  beta := 1
  slow := []
  fast := []
  inner := []
  final := []
  forceE := fun x i => if i = 0 then -((1 - alpha) * dt) • (gradR (x 1) + perpR (x 0)) else 0
  forceI := fun x i => if i = 0 then -(alpha * dt) • (gradR (x 1) + perpR (x 0)) else 0
  transport := [⟨[1], fun vel x i => x i - dt • divR vel⟩]
  solve := fun r i =>
    let k := alpha * dt
    let y := ((r 0).1 - k * (r 1).1 + k * (r 0).2) / (1 + 2 * k ^ 2)
    if i = 0 then (y, (r 0).2 - k * y) else ((r 1).1 + k * y, (r 1).2)
  bcs := id

theorem rot_isWave (alpha alphaU dt : ℚ) (a b : ℕ) : IsWave (rotWave alpha alphaU dt a b) 1 gradR divR perpR alpha dt where
  ne := by simp [rotWave]
  wind := rfl
  depth := rfl
  slow := rfl
  fast := rfl
  inner := rfl
  forceE_u := fun x => rfl
  forceI_u := fun x => rfl
  forceE_d := fun x => rfl
  forceI_d := fun x => rfl
  transport := ⟨_, rfl, fun vel x => rfl⟩

theorem rot_energy : IsWaveEnergy gradR divR perpR dotC dotC where
  symmU := by intro v w; simp [dotC]; ring
  symmD := by intro v w; simp [dotC]; ring
  adj := by intro v p; simp [dotC, gradR, divR]
  skew := by intro v w; simp [dotC, perpR]; ring

theorem rot_isWaveSolver (alpha alphaU dt : ℚ) (a b : ℕ) :
    IsWaveSolver (rotWave alpha alphaU dt a b) 1 gradR divR perpR alpha dt where
  two := by
    intro i
    change i = 0 ∨ i = 1
    omega
  row_u := by
    intro r
    have hk : (1 + 2 * (alpha * dt) ^ 2 : ℚ) ≠ 0 := by positivity
    simp only [rotWave, gradR, perpR, if_true, Fin.isValue, one_ne_zero, if_false, LinearMap.coe_mk, AddHom.coe_mk]
    ext
    · simp
      field_simp
      ring
    · simp
  row_d := by
    intro r
    simp only [rotWave, divR, if_true, Fin.isValue, one_ne_zero, if_false, LinearMap.coe_mk, AddHom.coe_mk]
    ext <;> simp

/-- Every centred run with rotation keeps the energy, with the default accelerated iterations. -/
example (dt : ℚ) (a b n : ℕ) (x : ∀ i, Chan i) :
    let y := (fun x => timestep (rotWave (1 / 2) (1 / 2) dt (a + 1) (b + 1)) x x)^[n] x
    dotC (y 0) (y 0) + dotC (y 1) (y 1) = dotC (x 0) (x 0) + dotC (x 1) (x 1) :=
  C119_run _ 1 gradR divR perpR dt (rot_isWave _ _ _ _ _) (rot_isWaveSolver _ _ _ _ _) rfl (fun _ => rfl) rfl
    (Or.inr ⟨rfl, Nat.succ_pos _⟩) (Nat.succ_pos _) dotC dotC rot_energy dotC_pos dotC_pos n x

/-- A state and the solution of the timestep that starts there. -/
def rotX (i : Fin 2) : Chan i := if i = 0 then (1, 3 / 2) else (2, 0)
def rotY (i : Fin 2) : Chan i := if i = 0 then (0, 3 / 2) else (5 / 2, 0)

theorem rot_solution : IsSolution (rotWave 1 (1 / 2) 1 1 1) rotX rotY where
  eqn := by
    intro i _
    fin_cases i <;> decide +kernel
  other := by
    intro i hi
    cases hi
  bc := rfl

/-- C119: with rotation, `alpha > 1/2` and the default transporting velocity at the middle of the timestep (no `off_centred_u`) the
energy of a converged timestep can grow: pressure gradient, Coriolis term and divergence are then centred differently. -/
theorem C119_rotation_refuted : ∃ (m : Siqn ℚ Chan) (g h c : ℚ × ℚ →ₗ[ℚ] ℚ × ℚ) (alpha dt : ℚ) (xn x : ∀ i, Chan i),
    IsWave m 1 g h c alpha dt ∧ IsWaveEnergy g h c dotC dotC ∧ 1 / 2 < alpha ∧ m.alphaU = 1 / 2 ∧ IsSolution m xn x ∧
      dotC (xn m.u) (xn m.u) + dotC (xn 1) (xn 1) < dotC (x m.u) (x m.u) + dotC (x 1) (x 1) := by
  refine ⟨rotWave 1 (1 / 2) 1 1 1, gradR, divR, perpR, 1, 1, rotX, rotY, rot_isWave _ _ _ _ _, rot_energy, by norm_num, rfl,
    rot_solution, ?_⟩
  change dotC (1, 3 / 2) (1, 3 / 2) + dotC (2, 0) (2, 0) < dotC (0, 3 / 2) (0, 3 / 2) + dotC (5 / 2, 0) (5 / 2, 0)
  simp only [dotC, LinearMap.mk₂_apply]
  norm_num

theorem dotC_nonneg (v : ℚ × ℚ) : 0 ≤ dotC v v := by
  by_cases h : v = 0
  · simp [h]
  · exact (dotC_pos v h).le

/-- A damped timestep with rotation and `off_centred_u`. -/
example (x : ∀ i, Chan i) (h : IsSolution (rotWave 1 1 1 1 1) rotX x) :
    dotC (x 0) (x 0) + dotC (x 1) (x 1) ≤ dotC (rotX 0) (rotX 0) + dotC (rotX 1) (rotX 1) :=
  C119_off_centred (rotWave 1 1 1 1 1) 1 gradR divR perpR 1 1 (rot_isWave _ _ _ _ _) (by norm_num)
    (by change (1 / 2 : ℚ) ≤ 1; norm_num) (Or.inl rfl) dotC dotC rot_energy dotC_nonneg dotC_nonneg rotX x h

end rotation
end Gusto.Props.QNEnergyProps
