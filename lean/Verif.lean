import Verif.Model.Basic
import Verif.Model.Momentum
import Verif.Model.Bundle
import Verif.Model.Diagram
import Verif.Model.Updates
import Verif.Spec.Bundle
import Verif.Proof.Bundle
import Verif.Spec.Inv
import Verif.Proof.Momentum
import Verif.Proof.Basic
import Verif.Proof.Worm
import Verif.Proof.WormG
import Verif.Proof.Tau
import Verif.Proof.Meas
import Verif.Proof.Order0
import Verif.Proof.Reconnect
import Verif.Proof.Insert
import Verif.Proof.Add
import Verif.Proof.Del
import Verif.Proof.RLoop
import Verif.Proof.Main
import Verif.Model.Chain
import Verif.Model.DiagIO
import Verif.Spec.Run
import Verif.Proof.Start
import Verif.Proof.Fix
import Verif.Proof.Reach
import Verif.Proof.Effect
import Verif.Spec.Extra
import Verif.Proof.Extra
import Verif.Spec.Loops
import Verif.Proof.Loops
import Verif.Proof.Select
import Verif.Proof.Sites
import Verif.Props.Demo
import Verif.Props.Diagram
import Verif.Props.Chain
import Verif.Props.Base
import Verif.Props.Reset
import Verif.Props.Check
import Verif.Spec.IO
import Verif.Proof.Relabel
import Verif.Proof.Load
import Verif.Proof.Patch
import Verif.Proof.RoundTrip
import Verif.Props.IO
import Verif.Model.Lattice
import Verif.Spec.Lattice
import Verif.Proof.Lattice
import Verif.Props.Lattice
import Verif.Model.IndexMap
import Verif.Spec.IndexMap
import Verif.Proof.IndexMap
import Verif.Props.IndexMap
import Verif.Model.Weights
import Verif.Spec.Weights
import Verif.Proof.Weights
import Verif.Props.Weights
import Verif.Model.Estimator
import Verif.Spec.Estimator
import Verif.Proof.Estimator
import Verif.Props.Estimator
import Verif.Model.Complex
import Verif.Spec.Complex
import Verif.Props.Complex
import Verif.Model.System
import Verif.Spec.System
import Verif.Proof.System
import Verif.Props.System
import Verif.Model.Monitor
import Verif.Spec.Monitor
import Verif.Proof.Monitor
import Verif.Proof.Adjust
import Verif.Props.Monitor
import Verif.Model.Env
import Verif.Spec.Env
import Verif.Props.Env
import Verif.Props.MainLoop
import Verif.Spec.Reverse
import Verif.Proof.RevBase
import Verif.Proof.RevWorm
import Verif.Proof.RevMove
import Verif.Proof.RevTau
import Verif.Proof.RevOrder0
import Verif.Proof.RevLoop
import Verif.Proof.RevAdd
import Verif.Proof.RevMain
import Verif.Props.Reverse
import Verif.Spec.Transparent
import Verif.Proof.Sim
import Verif.Proof.SimWorm
import Verif.Proof.SimMove
import Verif.Proof.SimAdd
import Verif.Proof.SimMain
import Verif.Props.Transparent
import Verif.Spec.Connect
import Verif.Proof.Connect
import Verif.Proof.Transfer
import Verif.Props.Connect
import Verif.Spec.Return
import Verif.Proof.Realise
import Verif.Proof.Return
import Verif.Props.Return
import Verif.Proof.Stale
import Verif.Proof.EnvSim
import Verif.Model.Process
import Verif.Spec.Process
import Verif.Proof.Process
import Verif.Props.Process
import Verif.Model.Collect
import Verif.Spec.Collect
import Verif.Props.Collect
import Verif.Spec.Balance
import Verif.Props.Balance
import Verif.Model.Fourier
import Verif.Spec.Fourier
import Verif.Proof.Fourier
import Verif.Props.Fourier
import Verif.Model.Dyson
import Verif.Spec.Dyson
import Verif.Proof.Dyson
import Verif.Props.Dyson
import Verif.Spec.Merge
import Verif.Proof.Merge
import Verif.Model.Loop
import Verif.Spec.Loop
import Verif.Proof.Loop
import Verif.Props.Loop
import Verif.Model.Bonds
import Verif.Spec.Bonds
import Verif.Proof.Bonds
import Verif.Proof.BondsLat
import Verif.Props.Bonds
import Verif.Model.Momenta
import Verif.Spec.Momenta
import Verif.Props.Momenta
import Verif.Model.Isolated
import Verif.Spec.Isolated
import Verif.Proof.Popov
import Verif.Props.Isolated
import Verif.Model.Anneal
import Verif.Spec.Anneal
import Verif.Props.Anneal
import Verif.Model.Tables
import Verif.Spec.Tables
import Verif.Props.Tables
import Verif.Model.First
import Verif.Spec.First
import Verif.Props.First
import Verif.Model.Symmetry
import Verif.Spec.Symmetry
import Verif.Proof.Symmetry
import Verif.Props.Symmetry
import Verif.Model.Statis3
import Verif.Spec.Statis3
import Verif.Props.Statis3
import Verif.Model.Manager
import Verif.Spec.Manager
import Verif.Props.Manager
import Verif.Model.Vertex
import Verif.Spec.Vertex
import Verif.Proof.Vertex
import Verif.Props.Vertex
import Verif.Model.SelfCons
import Verif.Spec.SelfCons
import Verif.Proof.SelfCons
import Verif.Props.SelfCons
import Verif.Props.Converge
import Verif.Props.Chi
import Verif.Props.Bands
import Verif.Props.Couplings
import Verif.Props.PyCast
import Verif.Props.PyRef
import Verif.Props.Explore
import Verif.Model.Hickle
import Verif.Spec.Hickle
import Verif.Proof.Hickle
import Verif.Props.Hickle
import Verif.Spec.Stationary
import Verif.Proof.StatMoves
import Verif.Proof.StatNames
import Verif.Proof.StatTimes
import Verif.Proof.StatMain
import Verif.Props.Stationary
import Verif.Spec.Unbiased
import Verif.Proof.UnbSum
import Verif.Proof.UnbOff
import Verif.Proof.UnbShare
import Verif.Proof.UnbFirst
import Verif.Proof.UnbTotal
import Verif.Props.Unbiased
import Verif.Model.Lu
import Verif.Spec.Lu
import Verif.Proof.LuFactor
import Verif.Proof.LuSolve
import Verif.Proof.LuStack
import Verif.Props.Lu
import Verif.Props.LuDyson
import Verif.Proof.WordAvg
import Verif.Proof.WordDraw
import Verif.Proof.WordOps
import Verif.Spec.Words
import Verif.Proof.WordStep
import Verif.Props.Words
import Verif.Model.Rng
import Verif.Spec.Rng
import Verif.Proof.RngText
import Verif.Proof.RngSeq
import Verif.Props.Rng
import Verif.Model.Draws
import Verif.Spec.Draws
import Verif.Proof.Draws
import Verif.Proof.DrawsSim
import Verif.Props.Draws
import Verif.Model.Double
import Verif.Spec.Double
import Verif.Proof.Double
import Verif.Proof.DoubleBins
import Verif.Props.Double
import Verif.Proof.DoubleRound
import Verif.Model.Ladder
import Verif.Spec.Ladder
import Verif.Props.Ladder
import Verif.Model.Path
import Verif.Spec.Path
import Verif.Props.Path
import Verif.Model.DysonSave
import Verif.Spec.DysonSave
import Verif.Props.DysonSave
import Verif.Model.Energy
import Verif.Spec.Energy
import Verif.Proof.Energy
import Verif.Props.Energy
import Verif.Model.LongRun
import Verif.Spec.LongRun
import Verif.Props.LongRun
import Verif.Model.SvdBasis
import Verif.Spec.SvdBasis
import Verif.Proof.SvdBasis
import Verif.Props.SvdBasis
import Verif.Model.UpdateReport
import Verif.Spec.UpdateReport
import Verif.Proof.UpdateReport
import Verif.Props.UpdateReport
import Verif.Model.Drawing
import Verif.Spec.Drawing
import Verif.Proof.Drawing
import Verif.Props.Drawing
import Verif.Model.Log
import Verif.Spec.Log
import Verif.Props.Log
import Verif.Model.VecText
import Verif.Spec.VecText
import Verif.Props.VecText
import Verif.Model.EstBundle
import Verif.Spec.EstBundle
import Verif.Props.EstBundle
import Verif.Model.WFirst
import Verif.Spec.WFirst
import Verif.Props.WFirst
import Verif.Model.RIndex
import Verif.Props.RIndex
import Verif.Model.Inverse3
import Verif.Props.Inverse3
import Verif.Axioms
