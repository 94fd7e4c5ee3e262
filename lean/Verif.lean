import Verif.Heap.Model
import Verif.Heap.Spec
import Verif.Heap.Lemmas
import Verif.Heap.Refine
import Verif.Heap.Props
import Verif.March.Model
import Verif.March.Spec
import Verif.March.Quad
import Verif.March.Init
import Verif.March.Update
import Verif.March.Link
import Verif.March.Loop
import Verif.March.Main
import Verif.March.Run
import Verif.March.Safe
import Verif.March.Grids
import Verif.March.Props
import Verif.Grid.Model
import Verif.Grid.Spec
import Verif.Grid.Lemmas
import Verif.Grid.Props
import Verif.Poly.Model
import Verif.Poly.Props
import Verif.Basis.Model
import Verif.Basis.Props
import Verif.Legendre.Model
import Verif.Legendre.Spec
import Verif.Legendre.Series
import Verif.Legendre.Orth
import Verif.Legendre.Quadrature
import Verif.Legendre.Eigen
import Verif.Legendre.Props
import Verif.Weno.Model
import Verif.Weno.Lemmas
import Verif.Weno.Osc
import Verif.Weno.Props
import Verif.Dg.Kron
import Verif.Dg.Model
import Verif.Dg.Galerkin
import Verif.Dg.Props
import Verif.Dg.Predictor
import Verif.Fv.Model
import Verif.Fv.Lemmas
import Verif.Fv.Props
import Verif.Fv.Uniform
import Verif.Step.Model
import Verif.Step.Par
import Verif.Step.Props
import Verif.Step.Real
import Verif.Step.Corners
import Verif.Step.Mid
import Verif.Step.Unread
import Verif.Sys.Params
import Verif.Sys.Eos
import Verif.Sys.Model
import Verif.Sys.Flux
import Verif.Sys.Convert
import Verif.Sys.Stress
import Verif.Sys.Jac
import Verif.Sys.JacF
import Verif.Sys.JacS
import Verif.Sys.JacM
import Verif.Rot.Model
import Verif.Rot.Props
import Verif.Grid.Walls
import Verif.Eig.Model
import Verif.Eig.Prim
import Verif.Eig.Form
import Verif.Eig.Props
import Verif.Iter.Model
import Verif.Iter.Cells
import Verif.Iter.Props
import Verif.Iter.Time
import Verif.Iter.Loop
import Verif.Iter.Utils
import Verif.Fill.Model
import Verif.Fill.Find
import Verif.Fill.Layers
import Verif.Fill.Field
import Verif.Fill.Ghost
import Verif.Fill.Line
import Verif.Fill.Plane
import Verif.Fill.Corner
import Verif.Relax.Model
import Verif.Relax.Rk
import Verif.Relax.Source
import Verif.Relax.React
import Verif.Relax.Strain
import Verif.Relax.Long
import Verif.Relax.Rate
import Verif.Relax.Thermal
import Verif.Relax.Launch
import Verif.Relax.Frame
import Verif.Relax.Turn
import Verif.Newton.Model
import Verif.Newton.Search
import Verif.Newton.Solve
import Verif.Newton.Predict
import Verif.Newton.Range
import Verif.Newton.Forcing
import Verif.Newton.Affine
import Verif.Krylov.Model
import Verif.Krylov.Arnoldi
import Verif.Krylov.Solve
import Verif.Krylov.Exist
import Verif.Krylov.Precond
import Verif.Riemann.Model
import Verif.Riemann.Step
import Verif.Riemann.Waves
import Verif.Riemann.Rates
import Verif.Riemann.Outgoing
import Verif.Riemann.Symm
import Verif.Riemann.Impedance
import Verif.Riemann.Traction
import Verif.Riemann.Rest
import Verif.Riemann.Star
import Verif.Riemann.Slip
import Verif.Fill.Relabel
import Verif.Run.Relabel
import Verif.Riemann.Eigen
import Verif.Riemann.Heat
import Verif.Sys.Boost
import Verif.Relax.Boost
import Verif.Riemann.Boost
import Verif.Stiff.Model
import Verif.Stiff.Props
import Verif.Mix.Model
import Verif.Mix.Props
import Verif.Mix.Rate
import Verif.Mix.Gas
import Verif.Grid.Svd
import Verif.Run.Model
import Verif.Run.Finish
import Verif.Run.Periodic
import Verif.Run.Conserve
import Verif.Weno.Two
import Verif.Weno.Face
import Verif.Run.Corner
import Verif.Run.Level
import Verif.Run.Fraction
import Verif.Run.Second
import Verif.Run.Pace
import Verif.Run.Still
import Verif.Run.Rest
import Verif.Step.Line
import Verif.Run.Copies
import Verif.Run.Twin
import Verif.Run.Lines
import Verif.Run.Column
import Verif.Run.Shift
import Verif.Dg.Mirror
import Verif.Step.Mirror
import Verif.Rot.Mirror
import Verif.Rot.MirrorSvd
import Verif.Rot.MirrorShear
import Verif.Run.Mirror
import Verif.Sys.Abs
import Verif.Rot.MirrorRoe
import Verif.Dg.Inside
import Verif.Rot.Hyper
import Verif.Run.MirrorRoe
import Verif.Run.Zoom
import Verif.Run.Dense
import Verif.Run.DenseStep
import Verif.Run.Masked
import Verif.Run.Materials
import Verif.Run.Tube
import Verif.Fill.PlaneHigh
import Verif.Run.FirstCorners
import Verif.Run.Axes
import Verif.Run.MaskedPlane
import Verif.Run.Cone
import Verif.Run.MaterialsPlane
import Verif.Run.TubePlane
import Verif.Sys.Units
import Verif.Relax.Units
import Verif.Run.SplitFirst
import Verif.Run.Units
import Verif.Weno.Scale
import Verif.March.Exact
import Verif.March.Columns
import Verif.March.Upwind
import Verif.March.Convex
import Verif.March.Again
import Verif.March.Thin
import Verif.Run.ContactPlane
import Verif.Run.ContactPlaneRun
import Verif.Run.ContactPlaneTime
import Verif.Run.Contact
import Verif.Run.ContactRun
import Verif.Run.ContactTime
import Verif.Run.MirrorPlane
