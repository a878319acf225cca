import Verif.Model.Draws
import Verif.Spec.Transparent

/-!
# Specification: how many words an update draws

Citations are relative to `/repo/src/module/markov`.
-/

namespace Feyn

section
variable {Q F : Type} [Field Q] [LinearOrder Q] [Field F]

/-- The number of words drawn for the choices of a proposal that is not given up: all calls of `RandomPick…` and `Bundle::RandomPick` in the function. `CHANGE_R_VERTEX` and
`CHANGE_SPIN_VERTEX` are not called (`markov.cpp` 264, 281, 327, 344). -/
def choiceDraws : Op → ℕ
  | .createWorm => 3       -- `markov.cpp` 364, 368, 373: line, momentum, spin
  | .deleteWorm => 0
  | .moveWormG => 1        -- 464
  | .moveWormW => 0
  | .reconnect => 1        -- 591
  | .addInteraction => 5   -- 644, 648, 649, 662 (two)
  | .delInteraction => 1   -- 765
  | .addDelta => 4         -- 852, 856, 857, 870
  | .delDelta => 1         -- 974
  | .changeTau => 2        -- 1055, 1060
  | .changeRVertex => 0
  | .changeRLoop => 4      -- 1273, 1286 (a site takes three words)
  | .g2w => 1              -- 1363
  | .w2g => 1              -- 1415
  | .delta2cont => 2       -- 1464, 1469
  | .cont2delta => 1       -- 1524
  | .changeSpin => 0
  | .toOrder0 => 0
  | .backToOrder1 => 7     -- 1615-1619
  | .toGGGammaG => 2       -- `gamma3_updates.cpp` 31, 42
  | .fromGGGammaG => 0
  | .toWWGammaW => 5       -- 145, 156, 157
  | .fromWWGammaW => 0

/-- Does the first test of the function return? (`markov.cpp` 361, 415, 458, 539, 583, 638-641, 759-762, 846-849, 968-971, 1053, 1264, 1358-1361, 1410-1413, 1462, 1521, 1578-1582,
1609-1613; `gamma3_updates.cpp` 28, 89, 142, 197.) -/
def refused (P : Params Q F) (d : Diag Q F) : Op → Bool
  | .createWorm | .changeTau | .changeRLoop => d.order = 0 || d.worm.exist
  | .deleteWorm | .moveWormG | .moveWormW | .reconnect => d.order = 0 || !d.worm.exist
  | .addInteraction | .addDelta => !d.worm.exist || d.order = 0 || P.maxOrd ≤ d.order
  | .delInteraction | .delDelta => !d.worm.exist || d.order ≤ 1
  | .changeRVertex | .changeSpin => true
  | .g2w => d.order = 0 || d.worm.exist || !d.measG || d.hasGamma ≠ 0
  | .w2g => d.order = 0 || d.worm.exist || d.measG || d.hasGamma ≠ 0
  | .delta2cont | .cont2delta => d.order < 2 || d.worm.exist
  | .toOrder0 => d.worm.exist || d.order ≠ 1 || d.hasGamma ≠ 0
  | .backToOrder1 => d.hasGamma ≠ 0 || d.worm.exist || d.order ≠ 0
  | .toGGGammaG | .toWWGammaW => d.order = 0 || d.worm.exist || d.hasGamma ≠ 0
  | .fromGGGammaG => d.order = 0 || d.worm.exist || d.hasGamma ≠ 1
  | .fromWWGammaW => d.order = 0 || d.worm.exist || d.hasGamma ≠ 2

/-- The words drawn by a call that returns after the first test and before the proposal is counted: those drawn before the `return` in question. -/
def earlyDraws (o : Words) (d : Diag Q F) : Op → ℕ
  -- `markov.cpp` 370: two words if the momentum is taken; otherwise 374, three
  | .createWorm =>
    match (do
      let w ← d.W.pick (o 0)
      let k ← pickK (o 1)
      wHashCheck d.mo.wHash (subK (d.mo.wK w) k)) with
    | .ok true => 2
    | _ => 3
  -- 645 and 853: one word if the momentum is taken; otherwise 655-660 and 863-868, three
  | .addInteraction | .addDelta =>
    match (do
      let k ← pickK (o 0)
      wHashCheck d.mo.wHash k) with
    | .ok true => 1
    | _ => 3
  -- 589: the sites are compared before the direction is drawn; otherwise 594
  | .reconnect => if d.co.r d.worm.ira ≠ d.co.r d.worm.masha then 0 else 1
  -- no word is drawn before the proposal: 421-425, 547-551, 1586; `gamma3_updates.cpp` 98-105, 206
  | .deleteWorm | .moveWormW | .toOrder0 | .fromGGGammaG | .fromWWGammaW => 0
  -- functions that are not called, and one that returns only in its first test
  | .changeRVertex | .changeSpin | .backToOrder1 => 0
  -- the direction, the vertex or the line: 468-472, 767-790, 976-999, 1057, 1281, 1364, 1418, 1465, 1525; `gamma3_updates.cpp` 33, 147-151
  | .moveWormG | .delInteraction | .delDelta | .changeTau | .changeRLoop | .g2w | .w2g | .delta2cont | .cont2delta | .toGGGammaG
  | .toWWGammaW => 1

/-- The words drawn by a call of an update that ends with `out`. The condition `prob >= 1.0 || RNG->urn() < prob` draws a word only if `prob` is less than one. -/
def drawn (P : Params Q F) (op : Op) (o : Words) (d : Diag Q F) (out : Out Q F) : ℕ :=
  if out.tag = .skip then if refused P d op then 0 else earlyDraws o d op
  else choiceDraws op + if 1 ≤ out.prob then 0 else 1

/-! ### Runs with interruptions -/

/-- What a process holds that matters for the rest of a run: the chain with the diagram, the estimators and the generator. -/
structure Process (Q F : Type) [Field Q] [LinearOrder Q] [Field F] where
  chain : Chain Q F
  mon : Monitor Q F
  gen : Mt

/-- `n` hops and a measurement, as in the main loop (`/repo/src/main.cpp` 84-85). -/
def Process.sweep [FloorRing Q] [Algebra Q F] [StarRing F] (n : ℕ) (s : Process Q F) : Res (Process Q F) := do
  let p ← hopGen n s.chain s.gen
  let m ← s.mon.measure p.1.P p.1.d
  .ok ⟨p.1, m, p.2⟩

/-- Sweeps of the given lengths one after the other, without interruption. -/
def Process.sweeps [FloorRing Q] [Algebra Q F] [StarRing F] : List ℕ → Process Q F → Res (Process Q F)
  | [], s => .ok s
  | n :: ns, s => do
    let s ← s.sweep n
    s.sweeps ns

/-- The same sweeps, interrupted any number of times. At an interruption the diagram and the text of the generator are saved; a new process reads them, whatever its memory, its first
generator and the entry `Seed` of its parameters are, and begins to count anew. The estimators, which are kept in files of their own, are taken over. -/
inductive Interrupted [FloorRing Q] [Algebra Q F] [StarRing F] {D : Type} (str : Py D → Option (List Byte)) (s : Process Q F) :
    List ℕ → Process Q F → Prop where
  | start : Interrupted str s [] s
  | sweep {ns : List ℕ} {t t' : Process Q F} (n : ℕ) : Interrupted str s ns t → t.sweep n = .ok t' → Interrupted str s (ns ++ [n]) t'
  | restart {ns : List ℕ} {t : Process Q F} (dict : DiagDict Q) (d₀ d' : Diag Q F) (init g' : Mt) (seed : Option ℤ) (k : ℕ) (pr ac : Op → ℕ → ℕ) :
      Interrupted str s ns t → t.chain.d.hasGamma = 0 → t.chain.d.order ≠ 0 → toDict t.chain.d = .ok dict → d₀.Fresh →
      loadDiagram t.chain.P dict d₀ = .ok d' → rngFromDict str init seed (some ((convRng D str init).cast t.gen)) = .ok g' →
      Interrupted str s ns ⟨⟨t.chain.P, d', k, pr, ac⟩, t.mon, g'⟩

end
end Feyn
