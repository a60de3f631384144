import Verif.UnionFind.Props
import Verif.Avl.Props
import Verif.Cdll.Props
import Verif.KdTree.Props
import Verif.RTree.Props
import Verif.Sort.Props
import Verif.Interval.Props
import Verif.Aabb.Props
import Verif.Nurbs.Props
import Verif.Nurbs.Props2
import Verif.Nurbs.Props3
import Verif.Nurbs.Props4
import Verif.Nurbs.Props5
import Verif.Nurbs.Props6
import Verif.Poly.Props
import Verif.Poly.Props2
import Verif.Poly.Props3
import Verif.Bvh.Props
import Verif.Bvh.Props2
import Verif.ImplTree.Props
import Verif.DnC.Props
import Verif.DnC.Props2
import Verif.DnC.Props3
import Verif.Vec.Props
import Verif.Vec.Props2
import Verif.Vec.Props3
import Verif.ApiBox.Props
import Verif.Implicit.Props
import Verif.Step.Props
import Verif.Step.Props2
import Verif.Step.Props3
import Verif.Brep.Props
import Verif.Brep.Props2
import Verif.NCache.Props
import Verif.Serial.Props
import Verif.Bez.Props
import Verif.Bez.Props2
import Verif.ApiMat.Props
import Verif.NDer.Props
import Verif.NSDer.Props
import Verif.Sweep.Props
import Verif.Sweep.Props2
import Verif.Lu.Props
import Verif.Integ.Props
import Verif.Integ.Props2
import Verif.Integ.Props3
import Verif.Fdm.Props
import Verif.Fdm.Props2
import Verif.Bisect.Props
import Verif.Bisect.Props2
import Verif.Newt.Props
import Verif.Newt.Props2
import Verif.Newt.Props3
import Verif.Newt.Props4
import Verif.Gjk.Props
import Verif.Gjk.Props2
import Verif.Gjk.Props3
import Verif.Gjk.Model3
import Verif.Gjk.Props4
import Verif.Prim.Props
import Verif.Prim.Props2
import Verif.Prim.Props3
import Verif.Dg.Props
import Verif.Dg.Props2
import Verif.Dg.Props3
import Verif.Dg.Props4
import Verif.Dg.Props5
import Verif.Deb.Props
import Verif.Circ.Props
import Verif.Circ.Props2
import Verif.Pip.Props
import Verif.Pip.Props2
import Verif.Par.Props
import Verif.Par.Props2
import Verif.Par.Props3
import Verif.Par.Props4
import Verif.Mol.Props
import Verif.Mol.Props2
import Verif.Boo.Props
import Verif.Boo.Props2
import Verif.March.Props
import Verif.March.Props2
import Verif.March.Props3
import Verif.March.Props4
import Verif.March.Props5
import Verif.Cp.Props
import Verif.Cp.Props2
import Verif.Ccx.Props
import Verif.Ccx.Props2
import Verif.Gm.Props
import Verif.Gm.Props2
import Verif.Skip.Props
import Verif.Skip.Props2
import Verif.Knot.Props
import Verif.Knot.Props2
import Verif.Knot.Props3
import Verif.Knot.Props4
import Verif.Knot.Props5
import Verif.Knot.Props6
import Verif.Knot.Whitney
import Verif.Knot.Props7
import Verif.Csx.Model
import Verif.Csx.Props
import Verif.Csx.NurbsEnv
import Verif.Csx.Props2
import Verif.Csx.Props3
import Verif.Csx.Props4
import Verif.Pinv.Model
import Verif.Pinv.Props
import Verif.Ssx.Model
import Verif.Ssx.Props
import Verif.Ssx.Props2
import Verif.Srf.Model
import Verif.Srf.Props
import Verif.Srf.Props2
import Verif.Srf.Props3
import Verif.Crv.Model
import Verif.Crv.Props
import Verif.Crv.Props2
import Verif.Swl.Model
import Verif.Swl.Props
import Verif.Swl.Props2
import Verif.Rtn.Model
import Verif.Rtn.Props
import Verif.Apc.Model
import Verif.Apc.Props
import Verif.Apc.Props2
import Verif.Tes.Model
import Verif.Tes.Props
import Verif.Tes.Props2
import Verif.Opt.Model
import Verif.Opt.Props
import Verif.Opt.Props2
import Verif.Ppx.Model
import Verif.Ppx.Props
import Verif.Spl.Join
import Verif.Spl.Props
import Verif.Spl.Props2
import Verif.Dc.Model
import Verif.Dc.Props
import Verif.Dc.Props2
import Verif.Dc.Props3
import Verif.Dc.Props4
import Verif.Geo.Model
import Verif.Geo.Props
import Verif.Bsu.Model
import Verif.Bsu.Props
import Verif.Bsu.Props2
import Verif.Tri.Model
import Verif.Tri.Props
import Verif.Tri.Props2
import Verif.Col.Model
import Verif.Col.Props
import Verif.Spl.Props3
import Verif.Spl.Props4
import Verif.Spl.Props5
import Verif.Rfn.Props4
import Verif.Crd.Model
import Verif.Crd.Props
import Verif.Clp.Model
import Verif.Clp.Ring
import Verif.Clp.Inv
import Verif.Clp.Phase
import Verif.Clp.Trace
import Verif.Clp.Mono
import Verif.Clp.Props
import Verif.Csx.Props5
import Verif.Ssx.Props3
import Verif.Pq.Props
import Verif.Fdm.Props3
import Verif.Poly.Props4
import Verif.Nst.Props2
import Verif.Cbb.Props2
import Verif.Mnm.Props
import Verif.Epl.Props
import Verif.Sic.Props
import Verif.Swl.Props3
import Verif.Sph.Props
import Verif.Sph.Props2
import Verif.Sml.Props
import Verif.Nsp.Props
import Verif.Nst.Props3
import Verif.Edg.Props
import Verif.Fea.Props
import Verif.Frm.Props
import Verif.Ssr.Props
import Verif.Ras.Props
import Verif.Bvh.Props3
import Verif.Fdm.Props4
import Verif.Sinv.Props
import Verif.Dqr.Props
import Verif.Acl.Props
import Verif.Gm.Props3
import Verif.Msc.Props
import Verif.Icp.Props
import Verif.Cnr.Props
import Verif.Ofs.Props
import Verif.Implicit.Props2
import Verif.Bvh.Props4
import Verif.Sinv.Props2
import Verif.Kdc.Props
import Verif.Opt.Props3
import Verif.Clm.Props
import Verif.Dqr.Props2
import Verif.Acl.Props2
import Verif.ApiMat.Props2
import Verif.Acl.Props3
import Verif.Fea.Props2
import Verif.Ppx.Props2
import Verif.Edg.Props2
import Verif.Imf.Props
import Verif.Sbv.Props
