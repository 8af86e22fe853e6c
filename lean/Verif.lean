import Verif.Props.C01
import Verif.Props.C02
import Verif.Props.C03
import Verif.Props.C04
import Verif.Props.C05
import Verif.Props.C06
import Verif.Props.C07
import Verif.Props.C08
import Verif.Props.C09
import Verif.Props.C10
import Verif.Props.C11
import Verif.Props.C12
import Verif.Props.C13
import Verif.Props.C14
import Verif.Props.C15
import Verif.Props.C16
import Verif.Props.C17
import Verif.Props.C18
import Verif.Props.C19
import Verif.Props.C20
import Verif.Props.C21
import Verif.Props.C22
import Verif.Props.C23
import Verif.Props.C24
import Verif.Props.C25
import Verif.Props.C26
import Verif.Props.C27
import Verif.Props.C28
import Verif.Props.C29
import Verif.Props.C30
import Verif.Props.C31
import Verif.Props.C32
import Verif.Props.C33
import Verif.R3D.InitPoly
import Verif.Spec.FaceList
import Verif.Proofs.InitPoly3
import Verif.Props.C34
import Verif.Props.C35
import Verif.Props.C36
import Verif.R3D.Voxel
import Verif.Proofs.Voxel3
import Verif.Props.C37
import Verif.Props.C38
import Verif.Props.C39
import Verif.R3D.Brep
import Verif.Spec.Brep
import Verif.Proofs.Brep3
import Verif.Proofs.BrepPack3
import Verif.Props.C40
import Verif.RND.Basic
import Verif.RND.Det
import Verif.Spec.PolyN
import Verif.Proofs.Heap
import Verif.Proofs.Det
import Verif.Proofs.SimplexVol
import Verif.Proofs.UtilN
import Verif.Proofs.InitN
import Verif.Props.C41
import Verif.Props.C42
import Verif.Props.C43
import Verif.Props.C46
import Verif.RND.Clip
import Verif.RND.Reduce
import Verif.RND.Voxel
import Verif.Proofs.VoxelN
import Verif.Props.C44
import Verif.Props.C45
import Verif.Props.C47
import Verif.Spec.FacetsN
import Verif.Spec.ConvexN
import Verif.Spec.LimitN
import Verif.Proofs.FlagN
import Verif.Proofs.InsN
import Verif.Proofs.CloseN
import Verif.Proofs.ClipN
import Verif.Proofs.GeomN
import Verif.Proofs.ConvexClipN
import Verif.Proofs.LimitN
import Verif.Proofs.RoomN
import Verif.Proofs.ClipListN
import Verif.Proofs.InitConvexN
import Verif.Props.C48
import Verif.Props.C49
import Verif.Props.C50
import Verif.Props.C51
import Verif.Spec.HullN
import Verif.Spec.NanQ
import Verif.Proofs.ConeVol
import Verif.Proofs.ReduceN
import Verif.Proofs.VolumeN
import Verif.Proofs.ReduceNan
import Verif.Props.C52
import Verif.Spec.VoxelN
import Verif.Proofs.VoxelVolN
import Verif.Props.C53
import Verif.Spec.ConnN
import Verif.RND.IsGood
import Verif.Proofs.IsGoodN
import Verif.Proofs.Balinski
import Verif.Proofs.RingN
import Verif.Props.C54
import Verif.Spec.FaceDup
import Verif.Proofs.DupRing3
import Verif.Proofs.DupLink3
import Verif.Proofs.DupDrop3
import Verif.Proofs.DupFace3
import Verif.Proofs.DupWalk3
import Verif.Proofs.DupExpand3
import Verif.Props.C55
import Verif.Proofs.Polygon2
import Verif.Spec.Convex3
import Verif.Proofs.ConvexFaces3
import Verif.Proofs.ConvexCover3
import Verif.Props.C56
import Verif.Spec.Convex2
import Verif.Spec.Limit3
import Verif.Proofs.Cycle2
import Verif.Proofs.Count3
import Verif.Proofs.Limit3
import Verif.Props.C57
import Verif.Props.C58
import Verif.Spec.Float
import Verif.Proofs.Float
import Verif.Proofs.FloatClip2
import Verif.Proofs.FloatClip3
import Verif.Proofs.FloatRed2
import Verif.Props.C59
import Verif.Props.C60
import Verif.Proofs.FloatRed3
import Verif.Props.C61
import Verif.Proofs.WindL1
import Verif.Proofs.FloatCover2
import Verif.Props.C62
import Verif.Spec.Fan3
import Verif.Proofs.Tet3
import Verif.Proofs.Surf3
import Verif.Proofs.SurfCut3
import Verif.Proofs.FloatCover3
import Verif.Props.C63
import Verif.Proofs.FloatSplit3
import Verif.Proofs.FloatVoxel3
import Verif.Props.C64
import Verif.Proofs.FloatSplit2
import Verif.Proofs.FloatRaster2
import Verif.Props.C65
import Verif.Int32
import Verif.Spec.Log2
import Verif.Proofs.Int32
import Verif.Props.C66
import Verif.Dep.R2D
import Verif.Spec.DepGrid2
import Verif.Proofs.DepRing2
import Verif.Proofs.DepGeom2
import Verif.Proofs.DepReduce2
import Verif.Proofs.DepCell2
import Verif.Props.C67
import Verif.Dep.R2DTree
import Verif.Proofs.DepTree2
import Verif.Props.C68
import Verif.Proofs.Simple3
import Verif.Proofs.CountSimple3
import Verif.Proofs.Near3
import Verif.Proofs.SimpleInit3
import Verif.Proofs.Grow3
import Verif.Props.C69
import Verif.Dep.R3D
import Verif.Spec.DepGrid3
import Verif.Proofs.DepIns3
import Verif.Proofs.DepLink3
import Verif.Proofs.DepClip3
import Verif.Proofs.DepStage3
import Verif.Proofs.DepConn3
import Verif.Proofs.DepReduce3
import Verif.Proofs.DepBox3
import Verif.Proofs.DepMom3
import Verif.Proofs.DepCell3
import Verif.Props.C70
import Verif.Dep.R3DTree
import Verif.Proofs.DepTree3
import Verif.Props.C71
import Verif.Props.C72
import Verif.Spec.FloatN
import Verif.Proofs.ClipOkN
import Verif.Proofs.FloatClipN
import Verif.Props.C73
import Verif.Proofs.PrismN
import Verif.Props.C74
import Verif.Props.C75
import Verif.Test.Utest
import Verif.Test.Split
import Verif.Test.Tests3
import Verif.Spec.TestPlanes3
import Verif.Proofs.SplitTest
import Verif.Proofs.Tests3
import Verif.Props.C76
import Verif.Test.Tests2
import Verif.Spec.TestPlanes2
import Verif.Proofs.Tests2
import Verif.Props.C77
import Verif.Spec.Both
import Verif.Proofs.Both
import Verif.Proofs.SplitBoth
import Verif.Test.SplitThru
import Verif.Proofs.SplitInput
import Verif.Proofs.ThruTests
import Verif.Props.C78
import Verif.Test.GridTests
import Verif.Proofs.BoxMoments
import Verif.Proofs.GridTests
import Verif.Props.C79
import Verif.Test.Nonconvex
import Verif.Proofs.Zigzag3
import Verif.Proofs.Nonconvex3
import Verif.Props.C80
import Verif.Proofs.Intersect
import Verif.Props.C81
import Verif.Test.TestsN
import Verif.Test.GridTestN
import Verif.Proofs.TestsN
import Verif.Proofs.GridTestN
import Verif.Props.C82
import Verif.Props.C83
