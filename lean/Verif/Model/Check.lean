import Verif.Model.DiagIO

/-!
# The self check of a diagram (`module/diagram/diagram_check.cpp`)

Printing and the file `error_diagram.gv` are not modelled. `near` is `Equal(Complex, Complex)` (`utility/complex.h`
50-53), a comparison up to `1e-9` in each component.
-/

namespace Feyn

section
variable {Q F : Type} [Field Q] [LinearOrder Q] [Field F]

/-- One end of a propagator in `_CheckTopo`, `diagram_check.cpp` 49-56. The message of the first `ABORT` reads the
vertex. -/
def checkGEnd (d : Diag Q F) (g : ℕ) (dir : Dir) : Res Unit := do
  let v := d.sh.gV g dir
  let e ← d.Ver.exist v
  if !e then do
    deref v
    .abort
  else if g ≠ d.sh.vG v (!dir) then .abort
  else .ok ()

/-- `diagram_check.cpp` 48-57. -/
def checkTopoG (d : Diag Q F) (i : ℕ) : Res Unit := do
  let g ← d.G.get i
  deref g
  checkGEnd d g IN
  checkGEnd d g OUT

/-- One end of an interaction in `_CheckTopo`, `diagram_check.cpp` 60-67. -/
def checkWEnd (d : Diag Q F) (w : ℕ) (dir : Dir) : Res Unit := do
  let v := d.sh.wV w dir
  let e ← d.Ver.exist v
  if !e then do
    deref v
    .abort
  else if w ≠ d.sh.vW v then .abort
  else if d.sh.vDir v ≠ dir then .abort
  else .ok ()

/-- `diagram_check.cpp` 59-68. -/
def checkTopoW (d : Diag Q F) (i : ℕ) : Res Unit := do
  let w ← d.W.get i
  deref w
  checkWEnd d w IN
  checkWEnd d w OUT

/-- `_CheckTopo`, `diagram_check.cpp` 35-71. It returns true or aborts. -/
def checkTopo (d : Diag Q F) : Res Unit :=
  if d.order = 0 then .ok ()
  else if d.G.avail ≠ 2 * d.order then .abort
  else if d.W.avail ≠ d.order then .abort
  else if d.Ver.avail ≠ 2 * d.order then .abort
  else do
    loopM (fun _ i => checkTopoG d i) () (List.range d.G.avail)
    loopM (fun _ i => checkTopoW d i) () (List.range d.W.avail)

/-- First loop of `_CheckStatus`, `diagram_check.cpp` 78-84. -/
def checkStatusG (d : Diag Q F) (total i : ℕ) : Res ℕ := do
  let g ← d.G.get i
  deref g
  if d.fl.gMeas g then
    if g ≠ d.gMeasure then .abort else .ok (total + 1)
  else .ok total

/-- The two worm tests of `_CheckStatus`, `diagram_check.cpp` 92-96, with the short-cut evaluation of `&&` and `||`. -/
def checkStatusWorm (d : Diag Q F) (w : ℕ) : Res Unit :=
  if d.fl.wWorm w then do
    deref d.worm.ira
    if d.sh.vW d.worm.ira ≠ w then do
      deref d.worm.masha
      if d.sh.vW d.worm.masha ≠ w then .abort else .ok ()
    else .ok ()
  else if d.worm.exist then do
    deref d.worm.ira
    if d.sh.vW d.worm.ira = w then .abort
    else do
      deref d.worm.masha
      if d.sh.vW d.worm.masha = w then .abort else .ok ()
  else .ok ()

/-- Second loop of `_CheckStatus`, `diagram_check.cpp` 89-103. -/
def checkStatusW (d : Diag Q F) (total i : ℕ) : Res ℕ := do
  let w ← d.W.get i
  deref w
  checkStatusWorm d w
  if d.fl.wDelta w then do
    deref (d.sh.wV w IN)
    deref (d.sh.wV w OUT)
    if d.co.tau (d.sh.wV w IN) ≠ d.co.tau (d.sh.wV w OUT) then .abort
    else if d.fl.wMeas w then .abort
    else .ok total
  else .ok (if d.fl.wMeas w then total + 1 else total)

/-- `_CheckStatus`, `diagram_check.cpp` 73-108. -/
def checkStatus (d : Diag Q F) : Res Unit :=
  if d.order = 0 then .ok ()
  else do
    let n ← loopM (checkStatusG d) 0 (List.range d.G.avail)
    if n ≠ (if d.measG then 1 else 0) then .abort
    else do
    let m ← loopM (checkStatusW d) 0 (List.range d.W.avail)
    if m ≠ (if d.measG then 0 else 1) then .abort else .ok ()

/-- Momentum balance at the vertex `v`, `diagram_check.cpp` 116-124. -/
def totalK (d : Diag Q F) (v : ℕ) : ℤ :=
  let k := subK (d.mo.gK (d.sh.vG v IN)) (d.mo.gK (d.sh.vG v OUT))
  let k := if d.sh.vDir v = IN then subAssignK k (d.mo.wK (d.sh.vW v)) else addAssignK k (d.mo.wK (d.sh.vW v))
  if d.worm.exist = true ∧ v = d.worm.ira then subAssignK k d.worm.k
  else if d.worm.exist = true ∧ v = d.worm.masha then addAssignK k d.worm.k
  else k

/-- Loop body of `_CheckK`, `diagram_check.cpp` 115-127. -/
def checkKV (d : Diag Q F) (i : ℕ) : Res Unit := do
  let v ← d.Ver.get i
  deref v
  deref (d.sh.vG v IN)
  deref (d.sh.vG v OUT)
  deref (d.sh.vW v)
  if totalK d v ≠ 0 then .abort else .ok ()

/-- `_CheckK`, `diagram_check.cpp` 110-129. -/
def checkK (d : Diag Q F) : Res Unit :=
  if d.order = 0 then .ok () else loopM (fun _ i => checkKV d i) () (List.range d.Ver.avail)

/-- Loop body of `_CheckSpin`, `diagram_check.cpp` 136-139. -/
def checkSpinG (d : Diag Q F) (i : ℕ) : Res Unit := do
  let g ← d.G.get i
  deref g
  deref (d.sh.gV g IN)
  deref (d.sh.gV g OUT)
  if d.co.spin (d.sh.gV g IN) OUT ≠ d.co.spin (d.sh.gV g OUT) IN then .abort else .ok ()

/-- `_CheckSpin`, `diagram_check.cpp` 131-142. -/
def checkSpin (d : Diag Q F) : Res Unit :=
  if d.order = 0 then .ok () else loopM (fun _ i => checkSpinG d i) () (List.range d.G.avail)

/-- Propagators in `_CheckWeight`, `diagram_check.cpp` 153-165; `none` stands for `return false`. -/
def checkWeightG (near : F → F → Bool) (P : Params Q F) (d : Diag Q F) : Option F → ℕ → Res (Option F)
  | none, _ => .ok none
  | some acc, i => do
    let g ← d.G.get i
    deref g
    let vin := d.sh.gV g IN
    let vout := d.sh.gV g OUT
    deref vin
    deref vout
    let wt := gW0 P d.ext (d.co.r vin) (d.co.r vout) (d.co.tau vin) (d.co.tau vout)
      (d.co.spin vin OUT) (d.co.spin vout IN) (d.fl.gMeas g) (d.fl.gGam g)
    if !near (d.wt.gWt g) wt then .ok none
    else if near (d.wt.gWt g) 0 then .ok none
    else .ok (some (acc * d.wt.gWt g))

/-- Interactions in `_CheckWeight`, `diagram_check.cpp` 166-177. -/
def checkWeightW (near : F → F → Bool) (P : Params Q F) (d : Diag Q F) : Option F → ℕ → Res (Option F)
  | none, _ => .ok none
  | some acc, i => do
    let w ← d.W.get i
    deref w
    let vin := d.sh.wV w IN
    let vout := d.sh.wV w OUT
    deref vin
    deref vout
    let wt := wW0 P d.ext (d.co.r vin) (d.co.r vout) (d.co.tau vin) (d.co.tau vout)
      (d.co.spin vin) (d.co.spin vout) (d.fl.wWorm w) (d.fl.wMeas w) (d.fl.wDelta w) (d.fl.wGam w)
    if !near (d.wt.wWt w) wt then .ok none
    else if near (d.wt.wWt w) 0 then .ok none
    else .ok (some (acc * d.wt.wWt w))

/-- `_CheckWeight`, `diagram_check.cpp` 144-181. -/
def checkWeight (near : F → F → Bool) (P : Params Q F) (d : Diag Q F) : Res Bool :=
  if d.order = 0 then .ok (near d.weight (normWeight P))
  else do
    let a ← loopM (checkWeightG near P d) (some 1) (List.range d.G.avail)
    let a ← loopM (checkWeightW near P d) a (List.range d.W.avail)
    match a with
    | none => .ok false
    | some acc => .ok (near (acc * ((d.sfl : F) * (if d.order % 2 = 0 then 1 else -1))) d.weight)

/-- `Diagram::CheckDiagram`, `diagram_check.cpp` 17-33, with `DEBUGMODE` on. -/
def checkDiagram (near : F → F → Bool) (P : Params Q F) (d : Diag Q F) : Res Bool := do
  checkTopo d
  checkStatus d
  checkK d
  checkSpin d
  checkWeight near P d

end
end Feyn
