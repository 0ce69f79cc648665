import Verif.Props.FEIndex
import Verif.Props.Elements
import Verif.Props.RadialGrid
import Verif.Props.Shape
import Verif.Props.FEEval
import Verif.Props.Factory
import Verif.Props.Quadrature
import Verif.Props.Angular
import Verif.Props.Assembly
import Verif.Props.Gram
import Verif.Props.Exchange
import Verif.Props.CoulombExchange
import Verif.Props.TwoEInner
import Verif.Props.Cholesky
import Verif.Props.ErfcExpn
import Verif.Props.Gaunt
import Verif.Props.SymBlocks
import Verif.Props.Orth
import Verif.Props.NAO
import Verif.Props.Checkpoint
import Verif.Props.Electrons
import Verif.Props.Density
import Verif.Props.AtomDB
import Verif.Props.AssocLegendre
import Verif.Props.DiaIndex
import Verif.Props.DiaMultipole
import Verif.Props.Nucleus
import Verif.Props.Radii
import Verif.Props.CholTwin
import Verif.Props.AtomicJK
import Verif.Props.SadatomJK
import Verif.Props.XC
import Verif.Props.SadXC
import Verif.Props.PureMXC
import Verif.Props.Harmonics
import Verif.Props.Couplings
import Verif.Props.OneElectron
import Verif.Props.Confinement
import Verif.Props.DiaOne
import Verif.Props.DiaJK
import Verif.Props.DiaQuad
import Verif.Props.QuadratureLimit
import Verif.Props.SadSCF
import Verif.Props.DrvSCF
import Verif.Props.Screening
import Verif.Props.ScreenedPot
import Verif.Props.Lcao
import Verif.Props.SadGrid
import Verif.Props.SadArrays
import Verif.Props.SadOccs
import Verif.Props.SadState
import Verif.Props.Aij
import Verif.Props.AijSCF
import Verif.Props.Cmdline
import Verif.Props.FuncName
import Verif.Props.CoreBasis
import Verif.Props.TwoDGrid
import Verif.Props.CrossOverlap
import Verif.Props.Completeness
import Verif.Props.ComplFiles
import Verif.Props.CheckCd
