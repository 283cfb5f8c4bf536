import Verif.Props.ActSpace
import Verif.Props.Alias
import Verif.Props.Amplitudes
import Verif.Props.BathCluster
import Verif.Props.Blocks
import Verif.Props.Bno
import Verif.Props.Brueckner
import Verif.Props.Cache
import Verif.Props.Cas
import Verif.Props.CcRdm2
import Verif.Props.CcUOpen
import Verif.Props.CcURdm2
import Verif.Props.CcUTwo
import Verif.Props.CcsdT
import Verif.Props.CcsdTU
import Verif.Props.ClusterHam
import Verif.Props.CorrFunc
import Verif.Props.Cpt
import Verif.Props.Crpa
import Verif.Props.Decompress
import Verif.Props.DemoRdm
import Verif.Props.DmetBath
import Verif.Props.DmetCpt
import Verif.Props.DmetEnergy
import Verif.Props.DmetIdempotent
import Verif.Props.DmetLoop
import Verif.Props.EbFci
import Verif.Props.EinsumSubscripts
import Verif.Props.EwfEnergy
import Verif.Props.EwfRdm
import Verif.Props.EwfURdm
import Verif.Props.Fold
import Verif.Props.FoldMos
import Verif.Props.FragDm2
import Verif.Props.GetFragments
import Verif.Props.GlobalAmplitudes
import Verif.Props.Hubbard
import Verif.Props.HubbardTiles
import Verif.Props.Icmp2
import Verif.Props.Icmp2U
import Verif.Props.Lowdin
import Verif.Props.Mp2
import Verif.Props.MpiSum
import Verif.Props.Options
import Verif.Props.OrbitalSign
import Verif.Props.Orbitals
import Verif.Props.Pack
import Verif.Props.Pdmet
import Verif.Props.Permutations
import Verif.Props.Polaritonic
import Verif.Props.Pop
import Verif.Props.QpEwdmet
import Verif.Props.Rdm
import Verif.Props.Register
import Verif.Props.ReplaceAttr
import Verif.Props.Rma
import Verif.Props.Rotate
import Verif.Props.Rpa
import Verif.Props.RpaCorrection
import Verif.Props.RpaEnergy
import Verif.Props.RpaX
import Verif.Props.Scmf
import Verif.Props.Screening
import Verif.Props.Secondary
import Verif.Props.SelfEnergy
import Verif.Props.Solvers
import Verif.Props.Svd
import Verif.Props.SymImages
import Verif.Props.SymOp
import Verif.Props.SymTree
import Verif.Props.Symmetry
import Verif.Props.SymmetryExc
import Verif.Props.TSym
import Verif.Props.Tailor
import Verif.Props.TtoC
import Verif.Props.Updates
import Verif.Props.WithSend
