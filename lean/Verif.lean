import Verif.Core.Arr
import Verif.Core.Down
import Verif.Core.Exec
import Verif.Core.FinLoop
import Verif.Core.Mem
import Verif.Core.Par
import Verif.Core.Sums
import Verif.Model.Aca
import Verif.Model.Admissible
import Verif.Model.Alloc
import Verif.Model.Block
import Verif.Model.BlockIter
import Verif.Model.CbBranch
import Verif.Model.CbExpand
import Verif.Model.CbMatrix
import Verif.Model.Cluster
import Verif.Model.ClusterBasis
import Verif.Model.ClusterBuild
import Verif.Model.Coarsen
import Verif.Model.Collect
import Verif.Model.Compress
import Verif.Model.DdCluster
import Verif.Model.Dense
import Verif.Model.DenseRandom
import Verif.Model.EigFull
import Verif.Model.Eigen
import Verif.Model.Factor
import Verif.Model.FactorChol
import Verif.Model.FactorTasks
import Verif.Model.FactorTri
import Verif.Model.Frob
import Verif.Model.Gauss
import Verif.Model.Gmres
import Verif.Model.H2Convert
import Verif.Model.H2Matrix
import Verif.Model.H2Mul
import Verif.Model.H2Solve
import Verif.Model.HChol
import Verif.Model.HClone
import Verif.Model.HEnum
import Verif.Model.HFill
import Verif.Model.HInvert
import Verif.Model.HMatrix
import Verif.Model.HMul
import Verif.Model.HSolve
import Verif.Model.Harith
import Verif.Model.Heapsort
import Verif.Model.IO
import Verif.Model.Interp
import Verif.Model.Kernel
import Verif.Model.Krylov
import Verif.Model.KrylovSolve
import Verif.Model.Laplace
import Verif.Model.LocalWeights
import Verif.Model.Norm2
import Verif.Model.NormEst
import Verif.Model.Ortho
import Verif.Model.Project
import Verif.Model.QR
import Verif.Model.RefCount
import Verif.Model.Rk
import Verif.Model.Sparse
import Verif.Model.SurfRefine
import Verif.Model.Surface
import Verif.Model.Tri2d
import Verif.Model.TriP1
import Verif.Model.Tridiag
import Verif.Model.Trunc
import Verif.Model.TruncBasis
import Verif.Proof.Aca
import Verif.Proof.AcaPart
import Verif.Proof.Admissible
import Verif.Proof.Alloc
import Verif.Proof.Block
import Verif.Proof.BlockEnum
import Verif.Proof.BlockIter
import Verif.Proof.BlockLower
import Verif.Proof.BlockName
import Verif.Proof.CbBranch
import Verif.Proof.CbBranch2
import Verif.Proof.CbExpand
import Verif.Proof.CbMatrix
import Verif.Proof.CbMatrix2
import Verif.Proof.CbMatrix3
import Verif.Proof.Cluster
import Verif.Proof.ClusterBasis
import Verif.Proof.ClusterBasis2
import Verif.Proof.ClusterBasis3
import Verif.Proof.ClusterBasis4
import Verif.Proof.ClusterBasis5
import Verif.Proof.ClusterBasis6
import Verif.Proof.ClusterBuild
import Verif.Proof.ClusterFuel
import Verif.Proof.ClusterIter
import Verif.Proof.ClusterPath
import Verif.Proof.ClusterSimsub
import Verif.Proof.ClusterTerm
import Verif.Proof.ClusterTerm2
import Verif.Proof.Coarsen
import Verif.Proof.Coarsen2
import Verif.Proof.Coarsen3
import Verif.Proof.Collect
import Verif.Proof.Collect2
import Verif.Proof.Collect3
import Verif.Proof.Compress
import Verif.Proof.Compress2
import Verif.Proof.Compress3
import Verif.Proof.Compress4
import Verif.Proof.DdCluster
import Verif.Proof.DdCluster2
import Verif.Proof.DdCluster3
import Verif.Proof.DdCluster4
import Verif.Proof.Dense
import Verif.Proof.Dense2
import Verif.Proof.DenseRandom
import Verif.Proof.DenseSim
import Verif.Proof.EigFull
import Verif.Proof.Eigen
import Verif.Proof.Eigen2
import Verif.Proof.Eigen3
import Verif.Proof.Factor
import Verif.Proof.FactorBlocks
import Verif.Proof.FactorChol
import Verif.Proof.FactorDiag
import Verif.Proof.FactorEval
import Verif.Proof.FactorLR
import Verif.Proof.FactorTasks
import Verif.Proof.FactorTri
import Verif.Proof.FactorUse
import Verif.Proof.Frob
import Verif.Proof.Gauss
import Verif.Proof.Gauss2
import Verif.Proof.Gauss3
import Verif.Proof.Gauss4
import Verif.Proof.Gmres
import Verif.Proof.Gmres10
import Verif.Proof.Gmres11
import Verif.Proof.Gmres12
import Verif.Proof.Gmres13
import Verif.Proof.Gmres14
import Verif.Proof.Gmres2
import Verif.Proof.Gmres3
import Verif.Proof.Gmres4
import Verif.Proof.Gmres5
import Verif.Proof.Gmres6
import Verif.Proof.Gmres7
import Verif.Proof.Gmres8
import Verif.Proof.Gmres9
import Verif.Proof.H2Convert
import Verif.Proof.H2Convert2
import Verif.Proof.H2Matrix
import Verif.Proof.H2Matrix2
import Verif.Proof.H2Matrix3
import Verif.Proof.H2Mul
import Verif.Proof.H2Mul2
import Verif.Proof.H2Mul3
import Verif.Proof.H2Scale
import Verif.Proof.H2Solve
import Verif.Proof.H2Solve2
import Verif.Proof.H2Solve3
import Verif.Proof.HChol
import Verif.Proof.HChol2
import Verif.Proof.HChol3
import Verif.Proof.HChol4
import Verif.Proof.HChol5
import Verif.Proof.HChol6
import Verif.Proof.HClone
import Verif.Proof.HEnum
import Verif.Proof.HFill
import Verif.Proof.HFill2
import Verif.Proof.HInvert
import Verif.Proof.HInvert2
import Verif.Proof.HInvert3
import Verif.Proof.HInvert4
import Verif.Proof.HInvert5
import Verif.Proof.HMatrix
import Verif.Proof.HMatrix2
import Verif.Proof.HMatrixSymm
import Verif.Proof.HMul
import Verif.Proof.HMul2
import Verif.Proof.HMul3
import Verif.Proof.HSolve
import Verif.Proof.HSolve2
import Verif.Proof.HSolve3
import Verif.Proof.HSolve4
import Verif.Proof.HSolve5
import Verif.Proof.HSolve6
import Verif.Proof.HSolve7
import Verif.Proof.HSolve8
import Verif.Proof.Harith
import Verif.Proof.Harith2
import Verif.Proof.Harith3
import Verif.Proof.Harith4
import Verif.Proof.Harith5
import Verif.Proof.Harith6
import Verif.Proof.Harith7
import Verif.Proof.Harith8
import Verif.Proof.Heapsort
import Verif.Proof.IO
import Verif.Proof.IO2
import Verif.Proof.Interp
import Verif.Proof.Interp2
import Verif.Proof.Interp3
import Verif.Proof.Interp4
import Verif.Proof.Interp5
import Verif.Proof.Kernel
import Verif.Proof.Kernel2
import Verif.Proof.Kernel3
import Verif.Proof.Krylov
import Verif.Proof.KrylovBicg
import Verif.Proof.KrylovCG
import Verif.Proof.KrylovRun
import Verif.Proof.KrylovSolve
import Verif.Proof.Laplace
import Verif.Proof.ListTrace
import Verif.Proof.LocalWeights
import Verif.Proof.LocalWeights2
import Verif.Proof.LocalWeights3
import Verif.Proof.Norm2
import Verif.Proof.NormEst
import Verif.Proof.Ortho
import Verif.Proof.Ortho2
import Verif.Proof.Ortho3
import Verif.Proof.Ortho4
import Verif.Proof.Ortho5
import Verif.Proof.Project
import Verif.Proof.Project2
import Verif.Proof.QR
import Verif.Proof.QR2
import Verif.Proof.QR3
import Verif.Proof.QR4
import Verif.Proof.QR5
import Verif.Proof.QR6
import Verif.Proof.QR7
import Verif.Proof.RefCount
import Verif.Proof.RefCount2
import Verif.Proof.RefCount3
import Verif.Proof.RefCount4
import Verif.Proof.RefCount5
import Verif.Proof.Rk
import Verif.Proof.Sparse
import Verif.Proof.SurfRefine
import Verif.Proof.SurfRefine2
import Verif.Proof.Surface
import Verif.Proof.Surface2
import Verif.Proof.Surface3
import Verif.Proof.Surface4
import Verif.Proof.Surface5
import Verif.Proof.Tri2d
import Verif.Proof.Tri2d2
import Verif.Proof.Tri2d3
import Verif.Proof.Tri2dBuild
import Verif.Proof.Tri2dBuild2
import Verif.Proof.Tri2dCheck
import Verif.Proof.Tri2dFix
import Verif.Proof.TriP1
import Verif.Proof.TriP1b
import Verif.Proof.TriP1c
import Verif.Proof.TriP1d
import Verif.Proof.TriP1e
import Verif.Proof.TriP1f
import Verif.Proof.Tridiag
import Verif.Proof.Tridiag2
import Verif.Proof.Tridiag3
import Verif.Proof.Tridiag4
import Verif.Proof.Tridiag5
import Verif.Proof.Trunc
import Verif.Proof.Trunc2
import Verif.Proof.Trunc3
import Verif.Proof.Trunc4
import Verif.Proof.TruncBasis
import Verif.Proof.TruncBasis2
import Verif.Proof.TruncBasis3
import Verif.Proof.TruncBasis4
import Verif.Proof.TruncBasis5
import Verif.Proof.TruncBasis6
import Verif.Proof.TruncExist
import Verif.Proof.TruncSvd
import Verif.Props.Aca
import Verif.Props.AcaPart
import Verif.Props.Admissible
import Verif.Props.Alloc
import Verif.Props.Block
import Verif.Props.CbBranch
import Verif.Props.CbExpand
import Verif.Props.CbMatrix
import Verif.Props.ClusterBasis
import Verif.Props.ClusterBuild
import Verif.Props.ClusterTree
import Verif.Props.Coarsen
import Verif.Props.Collect
import Verif.Props.Compress
import Verif.Props.DdCluster
import Verif.Props.Dense
import Verif.Props.EigFull
import Verif.Props.Eigen
import Verif.Props.Factor
import Verif.Props.FactorChol
import Verif.Props.FactorTri
import Verif.Props.Frob
import Verif.Props.Gauss
import Verif.Props.Gmres
import Verif.Props.H2Convert
import Verif.Props.H2Matrix
import Verif.Props.H2Mul
import Verif.Props.H2Solve
import Verif.Props.HChol
import Verif.Props.HClone
import Verif.Props.HEnum
import Verif.Props.HFill
import Verif.Props.HInvert
import Verif.Props.HMatrix
import Verif.Props.HMul
import Verif.Props.HSolve
import Verif.Props.Harith
import Verif.Props.Heapsort
import Verif.Props.IO
import Verif.Props.Interp
import Verif.Props.Kernel
import Verif.Props.Krylov
import Verif.Props.KrylovBicg
import Verif.Props.KrylovSolve
import Verif.Props.Laplace
import Verif.Props.LocalWeights
import Verif.Props.NormEst
import Verif.Props.Ortho
import Verif.Props.Project
import Verif.Props.QR
import Verif.Props.RefCount
import Verif.Props.Rk
import Verif.Props.Sparse
import Verif.Props.SurfRefine
import Verif.Props.Surface
import Verif.Props.Tri2d
import Verif.Props.Tri2dBuild
import Verif.Props.TriP1
import Verif.Props.Tridiag
import Verif.Props.Trunc
import Verif.Props.TruncBasis
import Verif.Spec.Aca
import Verif.Spec.Admissible
import Verif.Spec.Block
import Verif.Spec.CbBranch
import Verif.Spec.ClusterBasis
import Verif.Spec.ClusterBuild
import Verif.Spec.ClusterTree
import Verif.Spec.Coarsen
import Verif.Spec.Collect
import Verif.Spec.Compress
import Verif.Spec.DdCluster
import Verif.Spec.Dense
import Verif.Spec.Eigen
import Verif.Spec.Factor
import Verif.Spec.FactorChol
import Verif.Spec.Frob
import Verif.Spec.Gauss
import Verif.Spec.Gmres
import Verif.Spec.H2Convert
import Verif.Spec.H2Matrix
import Verif.Spec.H2Mul
import Verif.Spec.H2Solve
import Verif.Spec.HClone
import Verif.Spec.HEnum
import Verif.Spec.HFill
import Verif.Spec.HInvert
import Verif.Spec.HMatrix
import Verif.Spec.HMul
import Verif.Spec.HSolve
import Verif.Spec.Harith
import Verif.Spec.IO
import Verif.Spec.Interp
import Verif.Spec.Kernel
import Verif.Spec.Krylov
import Verif.Spec.KrylovSolve
import Verif.Spec.Laplace
import Verif.Spec.LocalWeights
import Verif.Spec.Norm2
import Verif.Spec.NormEst
import Verif.Spec.Ortho
import Verif.Spec.Project
import Verif.Spec.QR
import Verif.Spec.RefCount
import Verif.Spec.Rk
import Verif.Spec.Sorting
import Verif.Spec.Sparse
import Verif.Spec.SurfRefine
import Verif.Spec.Surface
import Verif.Spec.Tri2d
import Verif.Spec.TriP1
import Verif.Spec.Tridiag
import Verif.Spec.Trunc
import Verif.Spec.TruncBasis
