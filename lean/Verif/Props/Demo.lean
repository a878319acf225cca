import Mathlib.Algebra.Order.Ring.Rat
import Mathlib.Analysis.Complex.Basic
import Verif.Proof.Reach
import Verif.Spec.Extra

/-!
# A concrete simulation

Used beside the property theorems to show that their hypotheses are met by non-trivial runs, and as
counterexample to properties the code does not have. All weight tables are constant 1 and numbers are
rational, so that the kernel can execute the model.
-/

namespace Feyn

/-- `x / |x|` on the rationals, the phase of a real weight. -/
def ratPhase : ℚ →*₀ ℚ where
  toFun x := if x = 0 then 0 else if 0 < x then 1 else -1
  map_zero' := by simp
  map_one' := by simp
  map_mul' x y := by
    rcases lt_trichotomy x 0 with hx | hx | hx
    · rcases lt_trichotomy y 0 with hy | hy | hy
      · simp [hx.ne, hy.ne, not_lt.2 hx.le, not_lt.2 hy.le, mul_pos_of_neg_of_neg hx hy]
      · simp [hy]
      · simp [hx.ne, hy.ne', hy, not_lt.2 hx.le, not_lt.2 (mul_neg_of_neg_of_pos hx hy).le]
    · simp [hx]
    · rcases lt_trichotomy y 0 with hy | hy | hy
      · simp [hx.ne', hy.ne, hx, not_lt.2 hy.le, not_lt.2 (mul_neg_of_pos_of_neg hx hy).le]
      · simp [hy]
      · simp [hx.ne', hy.ne', hx, hy, mul_pos hx hy]

/-- Parameters on a 2 by 2 lattice with maximal order 3. -/
def demoP : Params ℚ ℚ where
  beta := 1
  maxOrd := 3
  runGamma3 := false
  lx := 2
  ly := 2
  nsub := 1
  orderRW := [1, 1, 1, 1]
  wormRW := 1
  polarRW := 1
  gammaGRW := 1
  gammaWRW := 1
  gMeasT _ _ _ _ _ _ := 1
  gSmoothT _ _ _ _ _ _ := 1
  gGamT _ _ _ _ _ _ _ := 1
  wMeasT _ _ _ _ _ _ := 1
  wDeltaT _ _ _ _ := 1
  wMeasDeltaT _ _ _ _ := 1
  wSmoothT _ _ _ _ _ _ := 1
  wGamT _ _ _ _ _ _ _ := 1
  mod := AbsoluteValue.abs
  ph := ratPhase

/-- The same with the composite line updates switched on. -/
def demoP3 : Params ℚ ℚ := { demoP with runGamma3 := true }

/-- Memory before the start. -/
def demoRaw : Diag ℚ ℚ where
  order := 0
  phase := 1
  weight := 1
  sfl := 0
  G := Bundle.init
  W := Bundle.init
  Ver := Bundle.init
  sh := ⟨fun _ _ => 0, fun _ => 0, fun _ => false, fun _ _ => 0, fun _ _ => 0⟩
  co := ⟨fun _ => ⟨0, 0, 0⟩, fun _ => 0, fun _ _ => false⟩
  mo := ⟨fun _ => 0, fun _ => 0, fun _ => false, fun _ => false⟩
  fl := ⟨fun _ => false, fun _ => false, fun _ => false, fun _ => false, fun _ => false, fun _ => false⟩
  wt := ⟨fun _ => 1, fun _ => 1⟩
  worm := ⟨false, 20, 20, 0, 0, 0⟩
  measG := false
  gMeasure := 0
  wMeasure := 0
  hasGamma := 0
  ext := ⟨0, ⟨0, 0, 0⟩, false⟩
  vin := .none
  vout := .none

theorem demoRaw_fresh : demoRaw.Fresh := ⟨rfl, rfl, rfl, rfl, rfl, rfl, rfl, rfl⟩

theorem demoP_wf : demoP.Wf := by constructor <;> simp [demoP, normWeight]
theorem demoP3_wf : demoP3.Wf := by constructor <;> simp [demoP3, demoP, normWeight]
theorem demoP_start : StartOk demoP := by constructor <;> simp [demoP, SiteIn, startSite]
theorem demoP3_start : StartOk demoP3 := by constructor <;> simp [demoP3, demoP, SiteIn, startSite]

/-- A 32 bit word. -/
def wordOf (n : ℕ) : Word := ⟨n % 4294967296, Nat.mod_lt _ (by norm_num)⟩

/-- A word for which `urn` is `num / den`, rounded down. -/
def urnWord (num den : ℕ) : ℕ := (num * 4294967296 / den + 2147483648) % 4294967296

/-- The word with `urn = 0`: every proposal of positive probability is accepted. -/
def zeroWord : ℕ := 2147483648

/-- The word with `irn(-MAX_K, MAX_K) = k`. -/
def kWord (k : ℤ) : ℕ := (k + 10000).toNat

/-- The words of a hop that selects operation number `j` of `n` and then draws the list `l`. -/
def hopWords (n j : ℕ) (l : List ℕ) : Words
  | 0 => wordOf (urnWord (2 * j + 1) (2 * n))
  | i + 1 => wordOf (l.getD i zeroWord)

/-- A new simulation with parameters `P`. -/
def startChain (P : Params ℚ ℚ) : Res (Chain ℚ ℚ) := do
  let d ← buildNew P demoRaw
  .ok ⟨P, d, 0, fun _ _ => 0, fun _ _ => 0⟩

/-- A new simulation followed by hops with the given words. -/
def demoRun (P : Params ℚ ℚ) (os : List Words) : Res (Chain ℚ ℚ) := do
  let c ← startChain P
  hop c os

/-- A returned value satisfying a test. -/
def Res.test {α : Type} (f : α → Bool) : Res α → Bool
  | .ok a => f a
  | _ => false

theorem Res.test_ok {α : Type} {f : α → Bool} {r : Res α} (h : r.test f = true) : ∃ a, r = .ok a ∧ f a = true := by
  cases r with
  | ok a => exact ⟨a, rfl, h⟩
  | abort => cases h
  | ub => cases h

theorem reach_hops {Q F : Type} [Field Q] [LinearOrder Q] [Field F] {P₀ : Params Q F} {os : List Words} :
    ∀ {c c' : Chain Q F}, Reach P₀ c → hop c os = .ok c' → Reach P₀ c' := by
  induction os with
  | nil => intro c c' h e; cases e; exact h
  | cons o os ih =>
    intro c c' h e
    simp only [hop] at e
    cases e1 : hopOne c o with
    | ok c1 => rw [e1] at e; exact ih (Reach.hop c c1 o h e1) e
    | abort => rw [e1] at e; cases e
    | ub => rw [e1] at e; cases e

theorem demoRun_reach {P : Params ℚ ℚ} {os : List Words} {c : Chain ℚ ℚ} (e : demoRun P os = .ok c) : Reach P c := by
  unfold demoRun startChain at e
  cases e1 : buildNew P demoRaw with
  | ok d =>
    simp only [e1, Res.ok_bind] at e
    exact reach_hops (Reach.start demoRaw d demoRaw_fresh e1) e
  | abort => simp [e1] at e
  | ub => simp [e1] at e

/-- A run whose final state passes a test reaches such a state. -/
theorem demo_reach {P : Params ℚ ℚ} (os : List Words) (f : Chain ℚ ℚ → Bool)
    (h : (demoRun P os).test f = true) : ∃ c, Reach P c ∧ f c = true := by
  obtain ⟨c, e, hc⟩ := Res.test_ok h
  exact ⟨c, demoRun_reach e, hc⟩

/-- Hops none of which starts at order 0. -/
def hopNZ : Chain ℚ ℚ → List Words → Res (Chain ℚ ℚ)
  | c, [] => .ok c
  | c, o :: os => if c.d.order = 0 then .ub else do
    let c' ← hopOne c o
    hopNZ c' os

theorem reachD_hops {P₀ : Params ℚ ℚ} {os : List Words} :
    ∀ {c c' : Chain ℚ ℚ}, ReachD P₀ c → hopNZ c os = .ok c' → ReachD P₀ c' := by
  induction os with
  | nil => intro c c' h e; cases e; exact h
  | cons o os ih =>
    intro c c' h e
    simp only [hopNZ] at e
    by_cases c0 : c.d.order = 0
    · rw [if_pos c0] at e; cases e
    rw [if_neg c0] at e
    cases e1 : hopOne c o with
    | ok c1 => rw [e1] at e; exact ih (ReachD.hop c c1 o h (fun q => absurd q c0) e1) e
    | abort => rw [e1] at e; cases e
    | ub => rw [e1] at e; cases e

/-- The same for runs that stay outside the order-0 sector. -/
theorem demo_reachD {P : Params ℚ ℚ} (os : List Words) (f : Chain ℚ ℚ → Bool)
    (h : (startChain P >>= fun c => hopNZ c os).test f = true) : ∃ c, ReachD P c ∧ f c = true := by
  obtain ⟨c, e, hc⟩ := Res.test_ok h
  refine ⟨c, ?_, hc⟩
  unfold startChain at e
  cases e1 : buildNew P demoRaw with
  | ok d =>
    simp only [e1, Res.ok_bind] at e
    exact reachD_hops (ReachD.start demoRaw d demoRaw_fresh e1) e
  | abort => simp [e1] at e
  | ub => simp [e1] at e

/-! Building blocks of runs with 19 operations. -/

/-- Create a worm on the interaction with name `w`. -/
def mkWorm (w : ℕ) (k : ℤ) : Words := hopWords 19 0 [w, kWord k, 1, zeroWord]
/-- Remove the worm. -/
def rmWorm : Words := hopWords 19 1 [zeroWord]
/-- Add an interaction between the outgoing (`dir = 1`) or incoming lines of the worm ends. -/
def addInt (k : ℤ) (dir : ℕ) : Words := hopWords 19 5 [kWord k, dir, 0, urnWord 1 4, urnWord 3 4, zeroWord]
/-- Add an instantaneous interaction. -/
def addDel (k : ℤ) (dir : ℕ) : Words := hopWords 19 7 [kWord k, dir, 0, urnWord 1 2, zeroWord]
/-- Delete an interaction. -/
def delInt (dir : ℕ) : Words := hopWords 19 6 [dir, zeroWord]
/-- Go to order 0. -/
def goZero : Words := hopWords 19 17 [zeroWord]
/-- Come back to order 1 with times 1/4 and 1/2. -/
def goOne : Words := hopWords 19 18 [0, 0, 0, urnWord 1 4, urnWord 1 2, 0, 0, zeroWord]

/-- A run with a worm at order 3, one of the three interactions being instantaneous. -/
def demoOps : List Words := [mkWorm 0 5, addDel 9 1, addInt 20 1]

/-- A worm-free diagram of order 3 with an instantaneous line. -/
def demoOpsFree : List Words := demoOps ++ [rmWorm]

theorem demo_worm : ∃ c, Reach demoP c ∧ (c.d.order == 3 && c.d.worm.exist && c.d.fl.wDelta 1) = true :=
  demo_reach demoOps _ (by decide +kernel)

theorem demo_free : ∃ c, Reach demoP c ∧ (c.d.order == 3 && !c.d.worm.exist && c.d.fl.wDelta 1) = true :=
  demo_reach demoOpsFree _ (by decide +kernel)

/-- A run of the extended simulation that ends with a composite propagator. -/
theorem demo_gamma : ∃ c, Reach demoP3 c ∧ (c.d.order == 1 && c.d.hasGamma == 1) = true :=
  demo_reach [hopWords 23 19 [1, urnWord 1 3, zeroWord]] _ (by decide +kernel)

/-- A run that ends in the order-0 sector. -/
theorem demo_zero : ∃ c, Reach demoP c ∧ (c.d.order == 0) = true :=
  demo_reach [goZero] _ (by decide +kernel)

/-! The numbers used by the program: real `Q`, complex `F`. -/

/-- `z / |z|`, zero at zero: `phase(Complex)`, `utility/complex.h` 104-109. -/
noncomputable def complexPhase : ℂ →*₀ ℂ where
  toFun z := z / ((‖z‖ : ℝ) : ℂ)
  map_zero' := by simp
  map_one' := by simp
  map_mul' z w := by
    rw [norm_mul, Complex.ofReal_mul, mul_div_mul_comm]

/-- `mod(Complex)`, `utility/complex.h` 94. -/
noncomputable def complexMod : AbsoluteValue ℂ ℝ where
  toFun z := ‖z‖
  map_mul' := norm_mul
  nonneg' := norm_nonneg
  eq_zero' _ := norm_eq_zero
  add_le' := norm_add_le

/-- A complex simulation with a non-trivial propagator. -/
noncomputable def complexDemo : Params ℝ ℂ where
  beta := 2
  maxOrd := 5
  runGamma3 := true
  lx := 4
  ly := 4
  nsub := 2
  orderRW := [1, 2, 3, 4, 5, 6]
  wormRW := 1 / 2
  polarRW := 1
  gammaGRW := 1
  gammaWRW := 1
  gMeasT _ _ _ _ _ _ := 1
  gSmoothT _ _ _ _ t1 t2 := if t1 ≤ t2 then Complex.I else -Complex.I
  gGamT _ _ _ _ _ _ _ := Complex.I
  wMeasT _ _ _ _ _ _ := 1
  wDeltaT _ _ _ _ := 1
  wMeasDeltaT _ _ _ _ := 1
  wSmoothT _ _ _ _ t1 t2 := ((t1 - t2 : ℝ) : ℂ) + 1
  wGamT _ _ _ _ _ _ _ := 1
  mod := complexMod
  ph := complexPhase

theorem complexDemo_wf : complexDemo.Wf := by constructor <;> simp [complexDemo, normWeight]
theorem complexDemo_start : StartOk complexDemo := by constructor <;> simp [complexDemo, SiteIn, startSite]

end Feyn
