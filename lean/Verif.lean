import Verif.Utils.Props
import Verif.Heap.Props
import Verif.Vec.Props
import Verif.Box.Props
import Verif.LineSearch.Generic
import Verif.LineSearch.Armijo
import Verif.LineSearch.Termination
import Verif.LineSearch.Nonmono
import Verif.LineSearch.Cubic
import Verif.LineSearch.Safe
import Verif.LineSearch.Ends
import Verif.Vmlmb.Converge
import Verif.Vmlmb.Memory
import Verif.Vmlmb.Direction
import Verif.Optim.Exact
import Verif.Vmlmb.Decrease
import Verif.Vmlmb.Session
import Verif.Vmlmb.Restart
import Verif.Vmlmb.SaveMemory
import Verif.Vmlmb.Demo
import Verif.Vmlmb.LastBound
import Verif.Optim.Describe
import Verif.Nlcg.History
import Verif.Nlcg.Demo
import Verif.Driver.Demo
import Verif.Fmin.Demo
import Verif.Linalg.Level1
import Verif.Linalg.Trmv
import Verif.Linalg.Gemm
import Verif.Linalg.Cholesky
import Verif.Lcg.Demo
import Verif.Gqt.Demo
import Verif.Cobyla.Best
import Verif.Cobyla.Constant
import Verif.Cobyla.Demo
import Verif.Powell.Layout
import Verif.Bobyqa.Demo
import Verif.Bobyqa.DemoTrust
import Verif.Bobyqa.Interpolates
import Verif.Bobyqa.Always
import Verif.Bobyqa.Restored
import Verif.Bobyqa.Least
import Verif.Bobyqa.Constant
import Verif.Bobyqa.Translate
import Verif.Newuoa.Demo
import Verif.Powell.Variables
import Verif.Powell.Inverse
import Verif.Powell.Change
import Verif.Newuoa.Update
import Verif.Newuoa.Quad
import Verif.Newuoa.Interp
import Verif.Newuoa.Moves
import Verif.Newuoa.First
import Verif.Newuoa.Begin
import Verif.Newuoa.Keep
import Verif.Newuoa.Angle
import Verif.Newuoa.Biglag
import Verif.Newuoa.Longest
import Verif.Newuoa.Interpolates
import Verif.Powell.Quadratic
import Verif.Newuoa.Quadratic
import Verif.Powell.Hessian
import Verif.Newuoa.Least
import Verif.Powell.First
import Verif.LineSearch.Lift
import Verif.Vmlmb.Global
import Verif.Vmlmb.Convex
import Verif.LineSearch.Sure
import Verif.Vmlmb.Monotone
import Verif.Newuoa.Trsapp
import Verif.Newuoa.Refine
import Verif.Newuoa.Boundary
import Verif.Newuoa.Reduces
import Verif.Newuoa.Constant
import Verif.Newuoa.Translate
import Verif.Nlcg.Global
import Verif.Nlcg.Converge
