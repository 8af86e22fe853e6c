import json
def gen(name, L):
    with open('/verif/seeded/'+name,'w') as f:
        for (file,defn,edit,claim,old,new) in L:
            s=open('/verif/lean/'+file).read()
            if s.count(old)!=1: print('BAD',s.count(old),edit)
            f.write(json.dumps(dict(file=file,definition=defn,edit=edit,claim=claim,old=old,new=new))+'\n')
B='Verif/RND/Basic.lean'; Dt='Verif/RND/Det.lean'; V='Verif/RND/Voxel.lean'; Cl='Verif/RND/Clip.lean'
gen('mutations_nd.jsonl',[
(Dt,'heapStep','swap with perm[c[n]] for even n too','C41','let j := (s.n % 2) * cn','let j := cn'),
(Dt,'heapStep','parity not flipped in the state','C41','.ok ⟨perm, c, 1, s.parity * (-1), s.det + dtmp, dtmp⟩','.ok ⟨perm, c, 1, s.parity, s.det + dtmp, dtmp⟩'),
(Dt,'heapStep','n not reset to 1 after a swap','C41','.ok ⟨perm, c, 1, s.parity','.ok ⟨perm, c, s.n, s.parity'),
(Dt,'heapStep','counter not reset when a level is finished','C41','let c ← wr D s.c s.n 0\n','let c ← wr D s.c s.n cn\n'),
(Dt,'rNdDet','initial parity 1','C41','let parity : Int := 2 * ((D % 2 : Nat) : Int) - 1','let parity : Int := 1'),
(Dt,'rNdDet','first term (identity) not added','C41','parity, 0 + dtmp, dtmp⟩','parity, 0, dtmp⟩'),
(Dt,'detTerm','column index not rotated by i (all iterations the same)','C41','.ok (dtmp * mat j ((i + pj) % D))','.ok (dtmp * mat j (pj % D))'),
(Dt,'rNdOrient','factorial loop ends at D-1','C41','forUp 1 (D + 1) ((1 : Nat) : K)','forUp 1 D ((1 : Nat) : K)'),
(Dt,'rNdOrient','v0 subtracted the other way round','C41','fun i j => verts (i + 1) j - verts 0 j','fun i j => verts 0 j - verts (i + 1) j'),
(B,'rNdRotate','second component uses the updated first component','C46','let y ← setN y ax2 (sine * t1 + cosine * t2)','let t1 ← getN y ax1\n    let y ← setN y ax2 (sine * t1 + cosine * t2)'),
(B,'rNdTranslate','subtracts','C46','(y i + shift i)','(y i - shift i)'),
(B,'rNdScale','scales by the first factor only','C46','(y i * scale i)','(y i * scale ⟨0, by omega⟩)'),
(B,'rNdShear','axes exchanged','C46','let y ← setN x.xyz axb (b + shear * s)','let y ← setN x.xyz axs (b + shear * s)'),
(B,'rNdAffinePos','repaired to +=','C43','.ok (Function.update y i (tmp j * mat i.castSucc j.castSucc))','.ok (Function.update y i (y i + tmp j * mat i.castSucc j.castSucc))'),
(B,'rNdAffinePos','divisor repaired with mat[D][D]','C43','let w ← forFin D (0 : K) fun j w','let w ← forFin D (mat (Fin.last D) (Fin.last D)) fun j w'),
(B,'rNdInitSimplex','neighbours (v+i) % (D+1): a vertex is its own neighbour','C42','(((v + i.val + 1) % (D + 1) : Nat) : Int)','(((v + i.val) % (D + 1) : Nat) : Int)'),
(B,'rNdInitSimplex','modulus D','C42','(((v + i.val + 1) % (D + 1) : Nat) : Int)','(((v + i.val + 1) % D : Nat) : Int)'),
(B,'rNdInitSimplex','v2 starts at v0+1','C42','forUp (v1 + 1) (D + 1) s fun v2 s','forUp (v0 + 1) (D + 1) s fun v2 s'),
(B,'simplexFace','counter not incremented','C42','let vs ← setFinds maxv vs v2 v0 v1 s.2\n  .ok (vs, s.2 + 1)','let vs ← setFinds maxv vs v2 v0 v1 s.2\n  .ok (vs, s.2)'),
(B,'setFinds','number written to one of the two places only','C42','fun i j => if i = b ∧ j = a then f else if i = a ∧ j = b then f else','fun i j => if i = a ∧ j = b then f else'),
(B,'rNdInitBox','or instead of exclusive or','C42','((v ^^^ stride : Nat) : Int)','((v ||| stride : Nat) : Int)'),
(B,'rNdInitBox','lo and hi exchanged','C42','then hi i else lo i)','then lo i else hi i)'),
(B,'rNdInitBox','nverts one short','C42','nverts := 2 ^ D }, nfaces := s.2 }','nverts := 2 ^ D - 1 }, nfaces := s.2 }'),
(B,'rNdInitBox','2-face counter not incremented','C42','wr maxv vs v { x with pos := { x.pos with finds := fs } }\n    .ok (vs, s.2 + 1)','wr maxv vs v { x with pos := { x.pos with finds := fs } }\n    .ok (vs, s.2)'),
(V,'voxEnvN','work stack one element per axis shorter (no + D)','C45','S := Nat.clog 2 (ncellN lo hi) + D + 1','S := Nat.clog 2 (ncellN lo hi) + 1'),
(V,'strideN','stride includes its own axis','C45','if i < j then s * (hi j - lo j) else s','if i ≤ j then s * (hi j - lo j) else s'),
(V,'strideN','column-major strides','C45','if i < j then s * (hi j - lo j) else s','if j < i then s * (hi j - lo j) else s'),
(V,'voxEnvN','grid index not relative to the box','C45','s + (c i - lo i) * strideN','s + c i * strideN'),
(V,'rNdVoxelize','empty boxes not rejected','C45','if p.poly.nverts = 0 ∨ ∃ i, hi i - lo i ≤ 0 then','if p.poly.nverts = 0 then'),
(V,'rNdClampIbox','plane buffer repaired to 2*D','C44','match ← clampBox 6 lo','match ← clampBox (2 * D) lo'),
(V,'rNdClampIbox','box not emptied for disjoint boxes','C44','| none => .ok ({ p with poly := { p.poly with nverts := 0 } }, fun _ => 0, fun _ => 0)','| none => .ok (p, lo, hi)'),
(V,'rNdGetIbox','floor and ceil exchanged','C47','getIbox maxv p.poly.nverts floor ceil','getIbox maxv p.poly.nverts ceil floor'),
])
Vx='Verif/Voxel.lean'; Ib='Verif/Ibox.lean'; R='Verif/R2D/Raster.lean'; V3='Verif/R3D/Voxel.lean'
gen('mutations_vox.jsonl',[
(Vx,'voxLoop','upper half starts one cell late','C18 C37','⟨ch.2, Function.update t.lo spax (t.lo spax + dmax / 2), t.hi⟩','⟨ch.2, Function.update t.lo spax (t.lo spax + dmax / 2 + 1), t.hi⟩'),
(Vx,'voxLoop','lower half ends at hi - dmax/2','C18 C37','(t.hi spax - (dmax - dmax / 2))⟩','(t.hi spax - dmax / 2)⟩'),
(Vx,'voxLoop','children exchanged','C19 C37','⟨ch.1, t.lo, Function.update t.hi spax','⟨ch.2, t.lo, Function.update t.hi spax'),
(Vx,'voxLoop','second child not pushed','C18 C37','nstack := n + 2 }','nstack := n + 1 }'),
(Vx,'longAxis','last instead of longest axis','C20 C38 C45','if acc.1 < hi i - lo i then (hi i - lo i, i) else acc','(hi i - lo i, i)'),
(Vx,'addCell','overwrites instead of accumulating','C18 C37','(y + x)','x'),
(Vx,'addCell','moment offset forgotten','C20 C38','wr dsz dest (nmom * g + m) (y + x)','wr dsz dest (nmom * g) (y + x)'),
(Vx,'voxLoop','split at the lower face of the cell above','C19 C37','((t.lo spax + dmax / 2 : Int) : K)','((t.lo spax + dmax / 2 + 1 : Int) : K)'),
(Ib,'iboxStep','maximum updated only if the minimum was not','C21 C39 C47','let r := if x i < r.1 i then (Function.update r.1 i (x i), r.2) else r\n  if r.2 i < x i','if x i < r.1 i then (Function.update r.1 i (x i), r.2) else\n  if r.2 i < x i'),
(Ib,'getIbox','floor for both ends','C21 C39 C47','fun i => ceil (r.2 i / d i)','fun i => floor (r.2 i / d i)'),
(Ib,'loFace','sign of the distance wrong','C22 C39','((-(clo i) : Int) : K) * d i','((clo i : Int) : K) * d i'),
(Ib,'hiFace','normal points outward','C22 C39','(-((1 : Nat) : K)), ((chi i','((1 : Nat) : K), ((chi i'),
(Ib,'clampStep','touching boxes are not treated as disjoint','C22 C39','if s.hi i ≤ clo i ∨ chi i ≤ s.lo i','if s.hi i < clo i ∨ chi i < s.lo i'),
(Ib,'clampStep','index box not changed below','C22 C39','pushFace cap { s with lo := Function.update s.lo i (clo i) } (loFace d clo i)','pushFace cap s (loFace d clo i)'),
(R,'rasEnv','stack one element shorter','C20','Nat.clog 2 (hi 1 - lo 1).toNat + 1\n','Nat.clog 2 (hi 1 - lo 1).toNat\n'),
(R,'rasEnv','row length from the wrong axis','C20','gind := fun c => (c 0 - lo 0) * (hi 1 - lo 1)','gind := fun c => (c 0 - lo 0) * (hi 0 - lo 0)'),
(R,'r2dSplitCoord','vertices on the plane go right','C18 C19','(fun x => 0 < x) p p o1 junk','(fun x => 0 ≤ x) p p o1 junk'),
(R,'r2dSplitCoord','outputs exchanged','C19','.ok (r.o0, r.o1)','.ok (r.o1, r.o0)'),
(R,'r2dClampIbox','room for three planes','C22','clampBox 4 lo','clampBox 3 lo'),
(V3,'voxEnv3','stack one element shorter','C38','Nat.clog 2 (hi 2 - lo 2).toNat + 1\n','Nat.clog 2 (hi 2 - lo 2).toNat\n'),
(V3,'voxEnv3','stride of the first axis uses the first grid size','C38','(c 0 - lo 0) * (hi 1 - lo 1) * (hi 2 - lo 2) +','(c 0 - lo 0) * (hi 0 - lo 0) * (hi 2 - lo 2) +'),
(V3,'r3dSplitCoord','outputs exchanged','C37','.ok (r.o0, r.o1)','.ok (r.o1, r.o0)'),
(V3,'r3dClampIbox','box not emptied','C39','| none => .ok ({ p with nverts := 0 }, fun _ => 0, fun _ => 0, 1)','| none => .ok (p, fun _ => 0, fun _ => 0, 1)'),
(V3,'r3dClampIbox','room for five planes','C39','clampBox 6 lo','clampBox 5 lo'),
])
M='Verif/R3D/Model.lean'; Rd='Verif/R3D/Reduce.lean'; U='Verif/R3D/Util.lean'; G='Verif/R3D/IsGood.lean'; IP='Verif/R3D/InitPoly.lean'; Br='Verif/R3D/Brep.lean'; F='Verif/Flood.lean'
gen('mutations_3d.jsonl',[
(M,'link3','slots 1 and 2 exchanged at the new vertex','C23','let vs1 ← wr maxv vs vstart (x.setNb 2 vcur)','let vs1 ← wr maxv vs vstart (x.setNb 1 vcur)'),
(M,'link3','back link forgotten','C23','wr maxv vs1 vcur (y.setNb 1 vstart)','wr maxv vs1 vcur y'),
(M,'succ3','turns the other way','C23 C25','⟨(np + 1) % 3, Nat.mod_lt _ (by decide)⟩','⟨(np + 2) % 3, Nat.mod_lt _ (by decide)⟩'),
(M,'r3dClipPlane','skips when smin > 0 only','C24','if 0 ≤ ds.smin then .ok (.cont p ds.sd) else','if 0 < ds.smin then .ok (.cont p ds.sd) else'),
(M,'r3dClipPlane','empties the poly when smax < 0 only','C25','if ds.smax ≤ 0 then','if ds.smax < 0 then'),
(M,'r3dClipPlane','buffer check removed','C26','insLoop maxv true mk3','insLoop maxv false mk3'),
(M,'r3dClip','empty input returns 1','C26','if p.nverts = 0 then .ok (p, 0) else r3dClipGo','if p.nverts = 0 then .ok (p, 1) else r3dClipGo'),
(M,'dist3','plane distance subtracted','C24','pl.d + dot3 v pl.n','dot3 v pl.n + -pl.d'),
(M,'wav3','z component uses y of b','C24','z := (wa * va.z + wb * vb.z) / (wa + wb)','z := (wa * va.z + wb * vb.y) / (wa + wb)'),
(M,'split3','one-sided input: the wrong output gets the copy','C28','.ok { inp := p, o0 := p, o1 := z1, sd := ds.sd, full := false }','.ok { inp := p, o0 := z1, o1 := p, sd := ds.sd, full := false }'),
(M,'r3dSplit','x <= 0 goes to the negative side','C28','(dist3 pl) (fun x => x < 0)','(dist3 pl) (fun x => x ≤ 0)'),
(M,'back3','back slot always 0','C28','if h : find3 g vcur < 3 then some ⟨find3 g vcur, h⟩ else none','some 0'),
(Rd,'sixV','one sign wrong','C29','v0.x * v2.y * v1.z - v1.x * v0.y * v2.z + v0.x * v1.y * v2.z','v0.x * v2.y * v1.z + v1.x * v0.y * v2.z + v0.x * v1.y * v2.z'),
(Rd,'redTri3','volume factor 1/3','C29','(x + ((1 : Nat) : K) / ((6 : Nat) : K) * sixv)','(x + ((1 : Nat) : K) / ((3 : Nat) : K) * sixv)'),
(Rd,'redEntry3','D not added to S','C29','let e := e + d\n','let e := e + c\n'),
(Rd,'redScale3','factor corder+3 forgotten','C29','* ((corder + 2 : Nat) : K) * ((corder + 3 : Nat) : K)))','* ((corder + 2 : Nat) : K)))'),
(Rd,'redWalk3','next edge not marked','C29','redWalk3 maxv order shift vc p vstart v0 fuel vnext (y.pnbrs pnext) { s with em := em }','redWalk3 maxv order shift vc p vstart v0 fuel vnext (y.pnbrs pnext) { s with em := s.em }'),
(Rd,'redFace3','marked edges not skipped','C29','if row pstart then .ok s else do','if False then .ok s else do'),
(Rd,'r3dShift','shift of the zeroth order only up to order-1','C30','let s ← forUp 1 (order + 1) { mom2','let s ← forUp 1 order { mom2'),
(Rd,'shiftEntry3','power of z uses mj','C30','powN vc.z (k - mk)','powN vc.z (k - mj)'),
(Rd,'r3dCenter','divides z by nverts+1','C30','vc.z / ((p.nverts : Nat) : K)⟩','vc.z / ((p.nverts + 1 : Nat) : K)⟩'),
(U,'r3dRotate','axes axis and axis+1','C31','let a2 := (axis + 2).tmod 3','let a2 := axis.tmod 3'),
(U,'r3dAffine','w not used for z','C31','.ok ⟨x / w, y / w, z / w⟩','.ok ⟨x / w, y / w, z⟩'),
(U,'r3dShear','axes exchanged','C31','setC3 q axb (b + shear * s)','setC3 q axs (b + shear * s)'),
(U,'r3dInitTet','neighbours of vertex 3 in the other order','C33','(3 : Nat) ⟨![1, 2, 0], verts 3⟩','(3 : Nat) ⟨![2, 1, 0], verts 3⟩'),
(U,'r3dInitBox','position of vertex 6 wrong','C33','⟨![5, 2, 7], ⟨hi.x, hi.y, hi.z⟩⟩','⟨![5, 2, 7], ⟨hi.x, lo.y, hi.z⟩⟩'),
(U,'r3dInitBox','link of vertex 4 wrong','C33','⟨![7, 0, 5], ','⟨![5, 0, 7], '),
(U,'r3dTetFaces','one cross product term exchanged','C35','((v 0).x - (v 3).x) * ((v 1).y - (v 3).y)⟩','((v 0).x - (v 3).x) * ((v 1).y - (v 2).y)⟩'),
(U,'r3dBoxFaces','sign of lo.x','C35','⟨⟨one, 0, 0⟩, -lo.x⟩','⟨⟨one, 0, 0⟩, lo.x⟩'),
(U,'r3dOrient','sign','C36','let m : K := -(((1 : Nat) : K) / ((6 : Nat) : K))','let m : K := (((1 : Nat) : K) / ((6 : Nat) : K))'),
(G,'isGoodStep3','distinctness of neighbours not tested','C32','if x.pnbrs np = x.pnbrs (np + 1) then false\n        else if','if'),
(G,'r3dIsGood','degree of every vertex not tested','C32','.ok (a = 3)','.ok true'),
(G,'isGoodPairs','pairs of equal vertices','C32','forUp (va + 1) p.nverts true','forUp va p.nverts true'),
(F,'flood','all marks equal 1','C32','let mark ← wr maxv mark vc val','let mark ← wr maxv mark vc 1'),
(F,'cutCheck','only the first masked vertex taken out','C32','let vct ← mask.foldlM','let vct ← (mask.take 1).foldlM'),
(IP,'cornerNbrs','first test writes slot 1','C34','if pn 0 = vprev then Function.update pn 2 vnext','if pn 0 = vprev then Function.update pn 1 vnext'),
(IP,'cornerNbrs','last case exchanged','C34','else Function.update (Function.update pn 1 vprev) 0 vnext','else Function.update (Function.update pn 0 vprev) 1 vnext'),
(IP,'r3dInitPoly','minimum of two edges per vertex allowed','C34','if m.1 < 3 then','if m.1 < 2 then'),
(IP,'countCorners','last corner of every face not counted','C34','forUp 0 (nvpf f) eperv fun v eperv','forUp 0 (nvpf f - 1) eperv fun v eperv'),
(Br,'pred3','turns the other way','C40','⟨(np + 2) % 3, Nat.mod_lt _ (by decide)⟩','⟨(np + 1) % 3, Nat.mod_lt _ (by decide)⟩'),
(Br,'brepMap','chain of coincident vertices maps to the previous vertex','C40','let a ← rd p.nverts m ((i - 1 : Nat) : Int)\n      wr p.nverts m i a','wr p.nverts m i (i - 1)'),
(Br,'brepFaces','search stops at vertices with one mark','C40','.ok (decide (0 < a ∧ a < 3))','.ok (decide (0 < a ∧ a < 2))'),
(Br,'brepPack','map of new indices off by one','C40','let cm ← wr maxv r.1 i r.2.2\n','let cm ← wr maxv r.1 i (r.2.2 + 1)\n'),
(Br,'brepComps','second component never looked for','C40','.ok (decide (a = 0))','.ok (decide (a < 0))'),
])
Rd='Verif/RND/Reduce.lean'
gen('mutations_ndclip.jsonl',[
(Cl,'cutPosN','weights of the two ends exchanged','C49 C52','(n i * sc - c i * sn) / (sc - sn)','(c i * sc - n i * sn) / (sc - sn)'),
(Cl,'cutPosN','plus instead of minus in the denominator','C49 C52','(n i * sc - c i * sn) / (sc - sn)','(n i * sc - c i * sn) / (sc + sn)'),
(Cl,'distN','distance of the plane not added','C49','s + x.xyz i * pl.n i) pl.d','s + x.xyz i * pl.n i) 0'),
(Cl,'copyFinds','slot of the cut edge not skipped','C48 C49','if np0 = np then .ok s else\n    if h : s.2 < D then','if h : s.2 < D then'),
(Cl,'copyFinds','numbers written in one direction only','C48 C49','if i = np1 ∧ j = 0 then f else if i = 0 ∧ j = np1 then f else s.1 i j','if i = 0 ∧ j = np1 then f else s.1 i j'),
(Cl,'insDartN','new 2-faces not marked with -1','C48 C49','if i ≠ 0 ∧ j ≠ 0 then -1 else fs i j','fs i j'),
(Cl,'insDartN','link of the kept vertex not redirected','C48 C49','(cv.setNb np s.nverts)','(cv.setNb np vnext)'),
(Cl,'insDartN','new vertex not linked back','C48 C49','fun i => if i = 0 then (vcur : Int) else -1','fun i => if i = 0 then vnext else -1'),
(Cl,'insLoopN','clipped instead of kept vertices are scanned','C48 C49','if c ≠ 0 then .ok s else\n    forFin D s fun np s => insDartN','if c = 0 then .ok s else\n    forFin D s fun np s => insDartN'),
(Cl,'closeLink','links to the new vertex only from one side','C48 C49','wr maxv vs prevnewvert (y.setNb pnext vcur)','wr maxv vs prevnewvert y'),
(Cl,'closeLink','slot of the wrong 2-face','C48 C49','let pprev ← slotFace x.pos.finds fcur','let pprev ← slotFace x.pos.finds fadj'),
(Cl,'closeLink','new 2-face numbered in one direction only','C48 C49','if i = np ∧ j = pprev then nfaces else if i = pprev ∧ j = np then nfaces else fs i j','if i = np ∧ j = pprev then nfaces else fs i j'),
(Cl,'walkNew','fcur and fadj not exchanged at a new vertex','C48 C49','fcur := s.fadj, fadj := s.fcur','fcur := s.fcur, fadj := s.fadj'),
(Cl,'walkNew','previous new vertex not advanced','C48 C49','prevnewvert := s.vcur }','prevnewvert := s.prevnewvert }'),
(Cl,'walkOld','adjacent face not updated','C48 C49','{ s with fadj := x.pos.finds np pnext, vprev','{ s with vprev'),
(Cl,'walkOld','turns into the adjacent face','C48 C49','vcur := x.pnbrs pnext }','vcur := x.pnbrs np }'),
(Cl,'closeFace','2-face counter not incremented','C48 C49','.ok (vs, s.2 + 1)','.ok (vs, s.2)'),
(Cl,'closeFace','walk starts with the faces exchanged and ends open','C48 C49','closeLink maxv w.verts w.vcur w.prevnewvert w.fcur w.fadj s.2','closeLink maxv w.verts w.vcur w.prevnewvert w.fadj w.fcur s.2'),
(Cl,'closeLoop','only pairs of consecutive slots','C48 C49','1 ≤ np0.val ∧ np0.val + 1 ≤ np1.val','1 ≤ np0.val ∧ np0.val + 1 = np1.val'),
(Cl,'rNdClipPlane','poly that is only touched is clipped','C48 C49','if 0 ≤ ds.smin then','if 0 < ds.smin then'),
(Cl,'rNdClipPlane','poly entirely outside is kept','C49','if ds.smax ≤ 0 then','if ds.smax < 0 then'),
(Cl,'rNdClipGo','only the first plane','C49','| .cont q sd\' => rNdClipGo maxv rest q sd\'','| .cont q _ => .ok q'),
(V,'rNdSplit','second plane not negated','C51','[⟨n\', coord * -((1 : Nat) : K)⟩]','[⟨n\', coord⟩]'),
(V,'rNdSplit','second clip of the first output','C51','let b ← rNdClip maxv (junk true) p','let b ← rNdClip maxv (junk true) a'),
(Rd,'ltdProd','divided by dd instead of dd+1','C52','((dd.val + 1 : Nat) : K)','((dd.val : Nat) : K)'),
(Rd,'ltdProd','sum instead of product','C52','s * (((1 : Nat) : K) * dotN','s + (((1 : Nat) : K) * dotN'),
(Rd,'ltdDir','projection not subtracted','C52','fun j => e j - dot * ltd dd j','fun j => e j'),
(Rd,'ltdDir','projected onto later directions too','C52','if dd.val < d then','if dd.val ≤ d then'),
(Rd,'ltdDir','not normalised','C52','fun j => e j / len','fun j => e j'),
(Rd,'reduceHelper','direction of the edge reversed','C52','fun j => x.pos.xyz j - y.pos.xyz j\n','fun j => y.pos.xyz j - x.pos.xyz j\n'),
(Rd,'reduceHelper','processed edges not skipped','C52','(Function.update processed i true) ltd','processed ltd'),
(Rd,'reduceHelper','contributions overwritten','C52','.ok (s.1 + r.1, r.2)','.ok (r.1, r.2)'),
(Rd,'rNdReduce','first vertex left out','C52','forUp 0 p.poly.nverts (0 : K)','forUp 1 p.poly.nverts (0 : K)'),
])
Q='Verif/Dep/R2D.lean'; QT='Verif/Dep/R2DTree.lean'; T='Verif/Dep/R3D.lean'; TT='Verif/Dep/R3DTree.lean'; DU='Verif/Dep/Util.lean'
gen('mutations_dep.jsonl',[
(Q,'initBoxQ','corners clockwise','C67','let vs ← put vs 1 0 2 hi.x hi.y','let vs ← put vs 1 0 2 lo.x lo.y'),
(Q,'interpQ','weights exchanged','C67','(cur.fdist ff * nxt.fdist f - nxt.fdist ff * cur.fdist f)','(cur.fdist f * nxt.fdist ff - nxt.fdist f * cur.fdist ff)'),
(Q,'insertQ','distances to earlier faces refreshed as well','C67 (harmless: only later faces are read; the theorems need not fail)','if f < ff ∧ andc ff = false then interpQ','if andc ff = false then interpQ'),
(Q,'insertQ','flag of the new vertex for later faces never set','C67','decide (f < ff ∧ andc ff = false ∧ 0 < interpQ f ff cur.orient nxt.orient)','false'),
(Q,'walkQ','inserted vertex keeps the old neighbour','C67','nx.setNb (1 - dir) p.nverts','nx.setNb dir p.nverts'),
(Q,'walkQ','last outside vertex not marked','C67','let vs ← wr maxv vs vcur (VertQ.mark c)\n      .ok','.ok'),
(Q,'findOutQ','clipped vertices not skipped','C67','if x.pos.orient.clip = false ∧ x.pos.orient.flag f = false then some v','if x.pos.orient.flag f = false then some v'),
(Q,'clipFaceQ','the two new vertices linked the wrong way round','C67','(a.setNb 0 ((p.nverts : Int) - 1))','(a.setNb 1 ((p.nverts : Int) - 1))'),
(Q,'edgeMomQ','xy moment without the factors two','C67','a.x * (two * a.y + b.y) + b.x * (a.y + two * b.y)','a.x * (a.y + b.y) + b.x * (a.y + b.y)'),
(Q,'reduceQ','clipped vertices counted','C67','if x.pos.orient.clip = true then .ok mom else do','if false then .ok mom else do'),
(Q,'fullMomQ','x^2 moment 1+3i+i^2','C67','(1 + 3 * i + 3 * i * i : Nat)','(1 + 3 * i + i * i : Nat)'),
(Q,'shiftMomQ','xy moment from the shifted first moments','C67','mom 5 + (xmin * mom 2 + ymin * mom 1 + xmin * ymin * mom 0)','mom 5 + (xmin * (mom 2 + ymin * mom 0) + ymin * (mom 1 + xmin * mom 0) + xmin * ymin * mom 0)'),
(Q,'orientAt','grid points on a line count as inside','C67','decide (0 < dist2 (faces f) gpt)','decide (¬ dist2 (faces f) gpt < 0)'),
(Q,'cellStepQ','corners in the wrong order','C67','let o1 ← rd no orient (((nj + 1) * (i + 1) + (j + 1) : Nat) : Int)','let o1 ← rd no orient (((nj + 1) * i + j : Nat) : Int)'),
(Q,'rasterizeQuad','last column of grid points left out','C67','forUp 0 (nj + 1) o fun j o =>\n      wr no o','forUp 0 nj o fun j o =>\n      wr no o'),
(QT,'splitNodeQ','right half starts at the same place','C68','imin := cur.imin + i, jmin := cur.jmin, ioff := cur.ioff - i','imin := cur.imin, jmin := cur.jmin, ioff := cur.ioff - i'),
(QT,'splitNodeQ','right half has the size of the left half','C68','jmin := cur.jmin + j, ioff := cur.ioff, joff := cur.joff - j','jmin := cur.jmin + j, ioff := cur.ioff, joff := j'),
(QT,'treeLoopQ','one-row nodes clipped as if they were cells','C68','else if cur.ioff = 1 ∧ cur.joff = 1 then','else if cur.ioff = 1 then'),
(QT,'treeLoopQ','right half not pushed','C68','junk it stk (n + 2) mom','junk it stk (n + 1) mom'),
(QT,'rootNodeQ','two corners exchanged','C68','(orientAt faces ⟨0, (nj : K) * d.y⟩) (orientAt faces ⟨0, 0⟩)','(orientAt faces ⟨0, 0⟩) (orientAt faces ⟨0, (nj : K) * d.y⟩)'),
(T,'boxNbrsT','neighbours of one vertex in the wrong order','C70','| 5 => ![1, 4, 7]','| 5 => ![1, 7, 4]'),
(T,'interpT','sign of the denominator','C70','/ (cur.fdist f - nxt.fdist f)','/ (nxt.fdist f - cur.fdist f)'),
(T,'insDartT','link of the kept vertex not redirected','C70','let vs ← wr maxv vs vcur (c.setNb np p.nverts)\n','let vs ← wr maxv vs vcur c\n'),
(T,'insVertT','vertices outside not marked','C70','let vs ← wr maxv p.verts vcur (VertT.mark c)\n','let vs ← wr maxv p.verts vcur c\n'),
(T,'walkT','turns the other way','C70','x.pnbrs (succ3 (find3 x.pnbrs vcur))','x.pnbrs (succ3 (succ3 (find3 x.pnbrs vcur)))'),
(T,'linkT','slots 1 and 2 exchanged','C70','let vs ← wr maxv vs v (x.setNb 2 vnext)\n    let y ← rd maxv vs vnext\n    wr maxv vs vnext (y.setNb 1 v)','let vs ← wr maxv vs v (x.setNb 1 vnext)\n    let y ← rd maxv vs vnext\n    wr maxv vs vnext (y.setNb 2 v)'),
(T,'triMomT','zx moment with one weight missing','C70','v2.x * v0.z + v2.x * v1.z + two * v2.x * v2.z','v2.x * v0.z + v2.x * v1.z + v2.x * v2.z'),
(T,'visitT','edge not marked','C70','(Function.update row np true)','row'),
(T,'visitT','pushes the same edge','C70','let st ← wr maxv s.st s.n (v, succ3 np)','let st ← wr maxv s.st s.n (v, np)'),
(T,'fanT','triangles with the opposite orientation','C70','triMomT polyorder v0 y.pos.pos x.pos.pos m','triMomT polyorder v0 x.pos.pos y.pos.pos m'),
(T,'faceT','second edge not marked','C70','let s ← visitT maxv s vnext pn\n','let s := s\n'),
(T,'findLiveT','first vertex even if clipped','C70','.ok (if x.pos.orient.clip = false then some v else none)','.ok (some v)'),
(T,'fullMomT','yz moment with the index of x','C70','d.y * d.z * ((1 + 2 * j : Nat) : K)','d.y * d.z * ((1 + 2 * i : Nat) : K)'),
(T,'shiftMomT','z shifted by the y offset','C70','mom 3 + zmin * mom 0','mom 3 + ymin * mom 0'),
(T,'andcmpT','only seven corners looked at','C70','(List.range 8).all','(List.range 7).all'),
(T,'orcmpT','only seven corners looked at','C70','(List.range 8).any','(List.range 7).any'),
(T,'cellStepT','corner order of the tree version','C70','(gindT nj nk (i + v / 4 % 2) (j + v / 2 % 2) (k + v % 2) : Int)','(gindT nj nk (i + v % 2) (j + v / 2 % 2) (k + v / 4 % 2) : Int)'),
(T,'vindT','row length from the wrong axis','C70','nj * nk * ii + nk * jj + kk','nj * nk * ii + nj * jj + kk'),
(TT,'splitNodeT','one new corner at the wrong end','C71','let p7 := orientIdx d faces cur.imin (cur.jmin + j) (cur.kmin + cur.koff)','let p7 := orientIdx d faces cur.imin (cur.jmin + j) cur.kmin'),
(TT,'splitNodeT','upper half has the size of the lower half','C71','kmin := cur.kmin + k, koff := cur.koff - k','kmin := cur.kmin + k, koff := k'),
(TT,'fillNodeT','last layer not stored','C71','forUp cur.kmin (cur.kmin + cur.koff) mom','forUp cur.kmin (cur.kmin + cur.koff - 1) mom'),
(TT,'treeLoopT','nodes outside are split further','C71','else if ¬ ∀ f, orcmpT cur.orient f = true then','else if ¬ ∃ f, orcmpT cur.orient f = true then'),
(TT,'voxelizeTree','corner order repaired','C71','voxelizeTreeOrd (fun v => v)','voxelizeTreeOrd (fun v => 4 * (if v % 4 = 1 ∨ v % 4 = 2 then 1 else 0) + 2 * (v / 2 % 2) + v / 4)'),
(DU,'faceQ','normal points to the right','C72','⟨-(v1.y - v0.y), v1.x - v0.x⟩','⟨v1.y - v0.y, -(v1.x - v0.x)⟩'),
(DU,'facesFromVertsQ','last face from the last vertex to itself','C72','((f + 1) % nverts : Nat)','(min (f + 1) (nverts - 1) : Nat)'),
(DU,'r2duOrient','sign repaired','C72','((pc.x - pa.x) * (pb.y - pa.y) - (pb.x - pa.x) * (pc.y - pa.y))','((pb.x - pa.x) * (pc.y - pa.y) - (pc.x - pa.x) * (pb.y - pa.y))'),
(DU,'r3duOrient','sign dropped','C72','let m : K := -(((1 : Nat) : K) / ((6 : Nat) : K))','let m : K := ((1 : Nat) : K) / ((6 : Nat) : K)'),
(DU,'tetFacesT','one normal reversed','C72','((v 0).x - (v 2).x) * ((v 1).y - (v 0).y) - ((v 0).x - (v 1).x) * ((v 2).y - (v 0).y)⟩','((v 0).x - (v 1).x) * ((v 2).y - (v 0).y) - ((v 0).x - (v 2).x) * ((v 1).y - (v 0).y)⟩'),
])

Cu='Verif/Cut.lean'; Fo='Verif/Flood.lean'; Ib='Verif/Ibox.lean'; I32='Verif/Int32.lean'; IP='Verif/R3D/InitPoly.lean'; Br='Verif/R3D/Brep.lean'; IG='Verif/RND/IsGood.lean'; U2='Verif/R2D/Util.lean'; U3='Verif/R3D/Util.lean'
gen('mutations_rest.jsonl',[
(IP,'cornerRange','smallest count never updated','C34','.ok (if a < m.1 then a else m.1, if m.2 < a then a else m.2)','.ok (m.1, if m.2 < a then a else m.2)'),
(IP,'cornerStep','previous and next vertex exchanged','C34','{ x with pnbrs := cornerNbrs x.pnbrs vprev vnext }','{ x with pnbrs := cornerNbrs x.pnbrs vnext vprev }'),
(IP,'initTrivalent','neighbours initialised with 0 instead of the marker','C34','let z ← rd numverts vertices v\n    wr maxv verts v ⟨fun _ => (maxv : Int), z⟩','let z ← rd numverts vertices v\n    wr maxv verts v ⟨fun _ => (0 : Int), z⟩'),
(IP,'dupMakeStep','buffer check off by one','C55','if s.nv + e > maxv then','if s.nv + e > maxv + 1 then'),
(IP,'dupMakeStep','start of the duplicates not recorded','C55','let vs ← wr maxv s.vstart v s.nv\n','let vs := s.vstart\n'),
(IP,'dupFillStep','slots 1 and 2 exchanged','C55','((x.setNb 1 vnext).setNb 2 vprev)','((x.setNb 2 vnext).setNb 1 vprev)'),
(IP,'dupFillStep','utilisation not counted','C55','let util ← wr (3 * maxv) s.2 vcur (u + 1)\n','let util := s.2\n'),
(IP,'dupRingStep','already linked duplicates are linked again','C55','x0.pnbrs 2 = x1.pnbrs 1 ∧ u = false then','x0.pnbrs 2 = x1.pnbrs 1 then'),
(IP,'dupRingStep','back link in slot 1','C55','let vb ← wr (3 * maxv) vb v1 (x1.setNb 0 v0)\n','let vb ← wr (3 * maxv) vb v1 (x1.setNb 1 v0)\n'),
(IP,'dupPairStep','second partner not marked','C55','let util ← wr (3 * maxv) util v11 true\n','let util := util\n'),
(IP,'relink','a failed search writes nothing','C55','  else .error .oob\n\n/-- Body of the loop that removes two','  else .ok vb\n\n/-- Body of the loop that removes two'),
(IP,'dupDropStep','the link of the second removed duplicate is not bridged','C55','let vb ← relink maxv vb (x1.pnbrs 1) v1 v11\n','let vb := vb\n'),
(IP,'dupDropStep','only one duplicate removed','C55','let util ← wr (3 * maxv) util v1 1\n','let util := util\n'),
(IP,'dupPackStep','new number not recorded','C55','let util ← wr (3 * maxv) s.2.1 v s.2.2\n','let util := s.2.1\n'),
(IP,'dupRenameStep','third slot not renamed','C55','forFin 3 verts fun np verts => do\n    let x ← rd maxv verts v\n    let u ← rd (3 * maxv) util (x.pnbrs np)','forFin 3 verts fun np verts => if np = 2 then .ok verts else do\n    let x ← rd maxv verts v\n    let u ← rd (3 * maxv) util (x.pnbrs np)'),
(IP,'initDup','pairs looked for from the vertex itself','C55','forUp (v0 + 1) numverts r fun v1 r => do','forUp (v0 + 2) numverts r fun v1 r => do'),
(Cu,'insLoop','clipped vertices processed too','C03','if c ≠ 0 then .ok s else\n    forFin D s fun np s => insDart','if c ≠ 0 ∧ false then .ok s else\n    forFin D s fun np s => insDart'),
(Cu,'compress','clipped count returned','C03','.ok { verts := vs, nverts := s.num }','.ok { verts := vs, nverts := nverts }'),
(Cu,'splitDists','counter of the right side not incremented','C06','nright := s.nright + 1 }\n    else','nright := s.nright }\n    else'),
(Cu,'spLoop','new vertices processed too','C06','forUp 0 onv { verts := verts, side := side, nverts := onv, full := false } fun vcur s =>','forUp 0 (onv + 1) { verts := verts, side := side, nverts := onv, full := false } fun vcur s =>'),
(Fo,'pushNbrs','first neighbour pushed D times','C32','let s ← wr maxv st.1 st.2 (x.pnbrs np)','let s ← wr maxv st.1 st.2 (x.pnbrs ⟨0, by omega⟩)'),
(Fo,'floodFrom','fuel one short','C32','flood maxv verts val (D * maxv + 2) (s, 1) mark','flood maxv verts val (D * maxv) (s, 1) mark'),
(Fo,'labelRegions','labels not counted up','C32','.ok (reg, s.2 + 1)','.ok (reg, s.2)'),
(Fo,'firstFreeStep','masked vertices accepted','C32','if r = rcur ∧ vc ∉ mask then','if r = rcur then'),
(Fo,'firstFree','0 if nothing is found','C32','.ok (r.getD nverts)','.ok (r.getD 0)'),
(Ib,'pushFace','capacity off by one','C44','if s.faces.length < cap then','if s.faces.length ≤ cap then'),
(Ib,'clampBox','starts with a face','C44','forFin D (some ⟨lo, hi, []⟩) (clampStep cap clo chi d)','forFin D (some ⟨clo, chi, []⟩) (clampStep cap clo chi d)'),
(I32,'i32','range one too large','C66','def i32 (x : Int) : C Int := if -2 ^ 31 ≤ x ∧ x < 2 ^ 31','def i32 (x : Int) : C Int := if -2 ^ 31 ≤ x ∧ x ≤ 2 ^ 31'),
(I32,'i64','32-bit range','C66','if -2 ^ 63 ≤ x ∧ x < 2 ^ 63','if -2 ^ 31 ≤ x ∧ x < 2 ^ 31'),
(I32,'longAxis32','last longest axis','C66','if acc.1 < siz then (siz, i) else acc','if acc.1 ≤ siz then (siz, i) else acc'),
(I32,'addCell32','stores instead of adding','C66','wr dsz dest g (y + x)','wr dsz dest g x'),
(I32,'voxLoop32','midpoint from the sum of the ends','C66','let mid ← i32 (t.lo spax + dmax / 2)','let mid0 ← i32 (t.lo spax + t.hi spax)\n        let mid := mid0 / 2'),
(I32,'numMom3I','divided before the last product','C66','let abc ← i32 (ab * c)\n  .ok (abc / 6)','let abc ← i32 (ab / 2 * c)\n  .ok (abc / 3)'),
(I32,'gind2I','index not relative to the box','C66','let b ← i32 (c 1 - lo 1)\n  let s ← i32 (a + b)\n  let t','let b ← i32 (c 1)\n  let s ← i32 (a + b)\n  let t'),
(I32,'gind3I','row length of the wrong axis','C66','let b ← i32 (b * gk)','let b ← i32 (b * gj)'),
(I32,'stackSize','floor of the logarithm','C66','⌈log2 g⌉','⌊log2 g⌋'),
(I32,'stride32','64-bit strides','C66','if i < j then i32 (s * (hi j - lo j)) else .ok s','if i < j then i64 (s * (hi j - lo j)) else .ok s'),
(I32,'ncell32','cells counted in 64 bits','C66','let nc ← i32 (nc * (hi i - lo i))','let nc ← i64 (nc * (hi i - lo i))'),
(I32,'gindNI','index added in 32 bits','C66','    i64 (s + b)) 0','    i32 (s + b)) 0'),
(I32,'getIbox32','upper bound not checked','C66','let _ ← i32 (b.2 i)\n','let _ ← i32 (b.1 i)\n'),
(I32,'clampStep32','negation not checked','C66','let x ← i32 (-(clo i))','let x := -(clo i)'),
(IG,'isGoodLinkN','links to the vertex itself accepted','C54','if x.pnbrs np = (v : Int) then .ok none\n    else if','if'),
(IG,'isGoodLinkN','only later equal links compared with the first','C54','np < npp ∧ x.pnbrs np','np.val = 0 ∧ np < npp ∧ x.pnbrs np'),
(IG,'nextSubset','elements before not reset','C54','if i < nextPos m s then i else if','if i < nextPos m s then s i else if'),
(IG,'nextPos','last gap not looked at','C54','(List.range (m - 1)).find?','(List.range (m - 2)).find?'),
(IG,'sameRegion','first element not compared','C54','forUp 1 m true fun v same','forUp 2 m true fun v same'),
(IG,'subsetLoop','stops one subset early','C54','if s (D - 2) < p.nverts then do','if s (D - 2) + 1 < p.nverts then do'),
(IG,'rNdIsGood','subsets of D vertices','C54','subsetLoop maxv p junk reg.1','subsetLoop (maxv + 1) p junk reg.1'),
(Br,'brepMark','vertex counted again','C40','.ok ⟨vm, em, vic, s.nvc + 1⟩\n  else .ok ⟨vm, em, s.vic, s.nvc⟩','.ok ⟨vm, em, vic, s.nvc + 1⟩\n  else .ok ⟨vm, em, s.vic, s.nvc + 1⟩'),
(Br,'brepWalk','next edge instead of the previous one','C40','(pred3 (find3 y.pnbrs vcur))','(pred3 (find3 y.pnbrs vcur + 2))'),
(Br,'firstEdge','edge 1 skipped','C40','if e 0 = 0 then 0 else if e 1 = 0 then 1 else if','if e 0 = 0 then 0 else if'),
(Br,'firstVert','0 if nothing is found','C40','.ok (r.getD n)','.ok (r.getD 0)'),
(U3,'norm3','length not guarded in one component','C35','⟨v.x / (tmplen + tiny), v.y / (tmplen + tiny), v.z / (tmplen + tiny)⟩','⟨v.x / (tmplen + tiny), v.y / (tmplen + tiny), v.z / tmplen⟩'),
(U3,'cent3','one vertex twice','C35','third * (a.z + b.z + c.z)','third * (a.z + b.z + b.z)'),
(U3,'polyFace3','second edge from the next vertex','C35','(p1.x - p0.x) * (p2.y - p0.y) - (p1.y - p0.y) * (p2.x - p0.x)','(p1.x - p0.x) * (p2.y - p0.y) - (p1.y - p0.y) * (p2.x - p1.x)'),
(U3,'tetFace3','distance with the wrong sign','C35','⟨n, -(dot3 n (cent3 a b c))⟩','⟨n, dot3 n (cent3 a b c)⟩'),
(U3,'r3dTranslate','z not shifted','C31','q.z + shift.z⟩','q.z⟩'),
(U3,'r3dScale','z not scaled','C31','q.z * scale⟩','q.z⟩'),
(U3,'setC3','axis 2 outside','C31','else if i = 2 then .ok { v with z := a } else .error .oob','else .error .oob'),
(U2,'r2dScale','y not scaled','C11','q.y * scale⟩','q.y⟩'),
(U2,'r2dShear','axes exchanged','C11','if axb = 0 then .ok { q with x := q.x + shear * s }','if axb = 0 then .ok { q with x := q.y + shear * s }'),
(U2,'norm2','divided by the square','C15','let tmplen := sqrt (dot2 v v)','let tmplen := dot2 v v'),
(U2,'r2dPolyFaces','last face from the last vertex to itself','C15','rd numverts vertices ((f + 1) % numverts : Nat)','rd numverts vertices (min (f + 1) (numverts - 1) : Nat)'),
])

Rd3='Verif/R3D/Reduce.lean'; M3='Verif/R3D/Model.lean'; Cn='Verif/RND/Clip.lean'
gen('mutations_rest2.jsonl',[
(T,'boxPosT','x and z bits exchanged','C70','⟨if v / 4 % 2 = 0 then lo.x else hi.x, if v / 2 % 2 = 0 then lo.y else hi.y,\n    if v % 2 = 0 then lo.z else hi.z⟩','⟨if v % 2 = 0 then lo.x else hi.x, if v / 2 % 2 = 0 then lo.y else hi.y,\n    if v / 4 % 2 = 0 then lo.z else hi.z⟩'),
(T,'initBoxT','seven vertices','C70','.ok { verts := vs, nverts := 8 }','.ok { verts := vs, nverts := 7 }'),
(T,'orientAtT','points on a face count as inside','C70','decide (0 < dist3 (faces f) gpt)','decide (¬ dist3 (faces f) gpt < 0)'),
(T,'insertT','distances to later faces not computed','C70','if f < ff ∧ andc ff = false then interpT f ff cur.orient nxt.orient else g.orient.fdist ff','g.orient.fdist ff'),
(T,'insertT','new vertices keep the clip mark of the buffer','C70','        clip := false } }\n\n/-- One neighbour slot','        clip := g.orient.clip } }\n\n/-- One neighbour slot'),
(T,'clipFaceT','vertices not relinked','C70','.ok { q with verts := vs }','.ok q'),
(T,'clipTet','only three faces','C70','forFin 4 p (clipFaceT maxv fuel andc)','forFin 4 p (fun f p => if f = 3 then .ok p else clipFaceT maxv fuel andc f p)'),
(T,'redLoopT','face summed even if marked','C70','if row e.2 = true then redLoopT','if false then redLoopT'),
(T,'reduceT','starts at slot 1','C70','wr maxv st0 0 ((v : Int), 0)','wr maxv st0 0 ((v : Int), 1)'),
(T,'clipCellT','box not centred','C70','initBoxT maxv junk.poly ⟨-half * d.x, -half * d.y, -half * d.z⟩','initBoxT maxv junk.poly ⟨-half * d.x, -half * d.y, 0⟩'),
(T,'cellT','cells outside one face are clipped','C70','else if ∀ f, orcmpT ors f = true then do','else if ∃ f, orcmpT ors f = true then do'),
(T,'numMomentsT','nine moments of order two','C70','if k = 1 then 4 else 10','if k = 1 then 4 else 9'),
(T,'storeT','added instead of stored','C70','let row ← wr nm (mom m) (x : Int) (val m)','let row ← wr nm (mom m) (x : Int) (mom m x + val m)'),
(T,'gindT','row length of the cells','C70','(nj + 1) * (nk + 1) * ii + (nk + 1) * jj + kk','(nj + 1) * (nk + 1) * ii + nk * jj + kk'),
(T,'voxelizeTet','moments not zeroed','C70','let mom ← zeroQ nm mmax (ni * nj * nk) mom0\n','let mom := mom0\n'),
(TT,'octT','last two corners exchanged','C71','else if v = 6 then o6 else o7','else if v = 6 then o7 else o6'),
(TT,'orientIdx','indices not scaled by the cell size','C71','orientAtT faces ⟨d.x * (i : K), d.y * (j : K), d.z * (k : K)⟩','orientAtT faces ⟨(i : K), (j : K), (k : K)⟩'),
(TT,'rootNodeT','top corner at the bottom','C71','(orientAtT faces ⟨x, y, z⟩) (orientAtT faces ⟨0, y, z⟩)','(orientAtT faces ⟨x, y, 0⟩) (orientAtT faces ⟨0, y, z⟩)'),
(Rd3,'triLoop','first index counts up','C29','body (corder - a) (a - k) k s','body a (corder - a - k) k s'),
(Rd3,'layEntry','third term for every k','C29','if 0 < k then do\n      let x ← rd2 (order + 1) P i j\n      .ok (c + fz x)','if 0 ≤ k then do\n      let x ← rd2 (order + 1) P i j\n      .ok (c + fz x)'),
(Rd3,'RedSt3.swap','one pyramid not exchanged','C29','Dp := s.Dc, Dc := s.Dp, Sp := s.Sc','Sp := s.Sc'),
(Rd3,'setMark','all slots marked','C29','wr n em v (Function.update row np true)','wr n em v (fun _ => true)'),
(Rd3,'rel3','z not shifted','C30','⟨a.x - vc.x, a.y - vc.y, a.z - vc.z⟩','⟨a.x - vc.x, a.y - vc.y, a.z⟩'),
(Rd3,'numMom3','divided by 3','C29','(order + 1) * (order + 2) * (order + 3) / 6','(order + 1) * (order + 2) * (order + 3) / 3'),
(Rd3,'r3dReduce','moments not set to zero','C29','fun m mom => wr (numMom3 order) mom m 0\n  if p.nverts = 0','fun _ mom => .ok mom\n  if p.nverts = 0'),
(M3,'find3','0 if the search fails','C23','else if pn 2 = x then 2 else 3','else if pn 2 = x then 2 else 0'),
(M3,'walk3','stops one vertex late','C23','if vnext < onv then walk3','if vnext ≤ onv then walk3'),
(M3,'mk3','slot 2 written','C23','Function.update g 0 v','Function.update g 2 v'),
(M3,'dot3','z left out','C24','a.x * b.x + a.y * b.y + a.z * b.z','a.x * b.x + a.y * b.y'),
(Cn,'slotFace','slot 0 accepted','C48','decide (k ≠ 0 ∧ fs 0 k = f)','decide (fs 0 k = f)'),
(Cn,'slotAt','own slot accepted','C48','decide (k ≠ x ∧ (if flip','decide ((if flip'),
(Cn,'walkLoopN','stops at the second new vertex','C48','if s.vcur = vstart then .ok s else','if s.vcur = vstart ∨ s.vcur = s.prevnewvert then .ok s else'),
(Cn,'rNdClip','an empty polytope is clipped too','C48','if p.poly.nverts = 0 then .ok p else rNdClipGo','if false then .ok p else rNdClipGo'),
(Cn,'cutPosN','distances exchanged','C73','(n i * sc - c i * sn) / (sc - sn)','(n i * sn - c i * sc) / (sc - sn)'),
(Cn,'distN','distance of the plane subtracted','C73','(fun s i => s + x.xyz i * pl.n i) pl.d','(fun s i => s + x.xyz i * pl.n i) 0'),
])

BH='Verif/R3D/BrepHeap.lean'
gen('mutations_heap.jsonl',[
(BH,'r3dFreeBrep','faces not freed','C75','      let a ← rdPtrs h b.faceinds f\n      hfree h a\n','      let _ ← rdPtrs h b.faceinds f\n      .ok h\n'),
(BH,'r3dFreeBrep','faceinds freed before the faces','C75','    let h ← hfree h b.vertices\n    let h ← forUp','    let h ← hfree h b.faceinds\n    let h ← forUp'),
(BH,'r3dFreeBrep','numvertsperface not freed','C75','    let h ← hfree h b.faceinds\n    hfree h b.numvertsperface\n','    hfree h b.faceinds\n'),
(BH,'r3dFreeBrep','array of breps not freed','C75','    hfree h b.numvertsperface\n  hfree h brep','    hfree h b.numvertsperface\n  .ok h'),
(BH,'r3dFreeBrep','array of breps freed first','C75','C (Heap V) := do\n  let h ← forUp 0 numcomponents h fun c h => do\n    let b ← rdBreps h brep c','C (Heap V) := do\n  let h ← hfree h brep\n  let h ← forUp 0 numcomponents h fun c h => do\n    let b ← rdBreps h brep c'),
(BH,'growBrepsH','grows one component late','C75','if nc = ncmax then do','if nc = ncmax + 1 then do'),
(BH,'growBrepsH','size not doubled','C75','    .ok (g.1, g.2, ncmax * 2)','    .ok (g.1, g.2, ncmax)'),
(BH,'growBrepsH','old pointer kept','C75','    .ok (g.1, g.2, ncmax * 2)','    .ok (g.1, bt, ncmax * 2)'),
(BH,'hrealloc','old block not freed','C75','    let h ← hfree r.1 a\n    .ok (h, r.2)','    .ok (r.1, r.2)'),
(BH,'storeFaceH','one element too few allocated','C75','hmalloc t.h kept.length (.ints junk.ints)','hmalloc t.h (kept.length - 1) (.ints junk.ints)'),
(BH,'storeFaceH','number of vertices off by one','C75','wr maxv t.nvpf t.nf kept.length','wr maxv t.nvpf t.nf (kept.length - 1)'),
(BH,'packFaceH','face shared with the first one','C75','let a ← rd maxv t.finds i','let a ← rd maxv t.finds 0'),
(BH,'packFaceH','indices not packed','C75','    let y ← rd maxv cm x\n    wrInts h a j y','    let _ ← rd maxv cm x\n    wrInts h a j x'),
(BH,'brepPackH','pointers swapped','C75','⟨v.2, s.nvc, f.2, n.2, t.nf⟩','⟨v.2, s.nvc, n.2, f.2, t.nf⟩'),
(BH,'brepPackH','one face less','C75','⟨v.2, s.nvc, f.2, n.2, t.nf⟩','⟨v.2, s.nvc, f.2, n.2, t.nf - 1⟩'),
(BH,'brepCompsH','face counter not reset','C75','{ t with nf := 0 }','t'),
(BH,'brepCompsH','all components in element 0','C75','let h ← brepPackH maxv junk p r.1 r.2 g.1 g.2.1 nc','let h ← brepPackH maxv junk p r.1 r.2 g.1 g.2.1 0'),
(BH,'r3dInitBrepH','room for one component','C75','let b := hmalloc h 2','let b := hmalloc h 1'),
(BH,'packVertsH','component map not filled','C75','      let cm ← wr maxv r.1 i r.2.2\n','      let cm ← wr maxv r.1 i 0\n'),
(BH,'packVertsH','counter not increased','C75','.ok (cm, h, r.2.2 + 1)','.ok (cm, h, r.2.2)'),
(BH,'r3dPrintBrep','vertices of the last component','C75','let b ← rdBreps h brep c\n    let vs','let b ← rdBreps h brep (numcomponents - 1 : Nat)\n    let vs'),
(BH,'brepFacesH','face stored twice','C75','      let t ← storeFaceH maxv junk r.2 t\n','      let t ← storeFaceH maxv junk r.2 t\n      let t ← storeFaceH maxv junk r.2 t\n'),
])

TS='Verif/Test/Split.lean'; T3='Verif/Test/Tests3.lean'; T2='Verif/Test/Tests2.lean'; TT='Verif/Test/SplitThru.lean'; TG='Verif/Test/GridTests.lean'; TU='Verif/Test/Utest.lean'
gen('mutations_tests.jsonl',[
(TS,'checkSums','parts compared with each other','C76','    assertEq (om (nmom - (n + 1))) (m1 (nmom - (n + 1)) + m2 (nmom - (n + 1))) tolFail','    assertEq (m1 (nmom - (n + 1))) (m2 (nmom - (n + 1))) tolFail'),
(TS,'checkSums','one moment too many','C76','    checkSums nmom om m1 m2 n\n','    assertEq (om nmom) (m1 nmom + m2 nmom) tolFail\n    checkSums nmom om m1 m2 n\n'),
(TS,'checkSums','the check that fails is left out','C76','    assertEq (om (nmom - (n + 1))) (m1 (nmom - (n + 1)) + m2 (nmom - (n + 1))) tolFail\n',''),
(TS,'checkBound','no tolerance','C76','  assertLt m1 (om * (((1 : Nat) : K) + tolFail))','  assertLt m1 om'),
(TS,'checkBound','parts exchanged with the whole','C76','  assertLt m2 (om * (((1 : Nat) : K) + tolFail))','  assertLt om (m2 * (((1 : Nat) : K) + tolFail))'),
(TS,'pushT','depth pushed at the wrong place','C76','wr t.stackSize st.depths st.nstack depth','wr t.stackSize st.depths (st.nstack + 1) depth'),
(TS,'pushT','nothing popped','C76','  .ok ⟨polys, depths, st.nstack + 1⟩','  .ok ⟨polys, depths, st.nstack + 2⟩'),
(TS,'pushBoth','no limit of the depth','C76','  if depth < t.maxDepth then do','  if True then do'),
(TS,'pushBoth','depth not increased','C76','    let st ← pushIf t st (t.keep v1) p1 (depth + 1)','    let st ← pushIf t st (t.keep v1) p1 depth'),
(TS,'splitPass','the second part is clipped from the first','C76','  let poly2 ← callC fun c => t.clip c opoly (t.flip splane)','  let poly2 ← callC fun c => t.clip c poly1 (t.flip splane)'),
(TS,'splitPass','plane not flipped','C76','  let poly2 ← callC fun c => t.clip c opoly (t.flip splane)','  let poly2 ← callC fun c => t.clip c opoly splane'),
(TS,'splitWhile','runs until one poly is left','C76','if st.nstack = 0 then pure () else do','if st.nstack ≤ 1 then pure () else do'),
(T3,'splitTest3','distance of the plane not flipped','C76','-pl.n.z⟩, -pl.d⟩\n  reduce','-pl.n.z⟩, pl.d⟩\n  reduce'),
(T3,'splitTest3','all halves split','C76','  keep := fun v => decide (minVol < v)','  keep := fun _ => true'),
(T3,'splitTest3','stack too small','C76','  stackSize := 64','  stackSize := 16'),
(T3,'newTet3','no least volume','C76','  let r ← randTet3 env verts minVol','  let r ← randTet3 env verts 0'),
(T3,'thruFace3','neighbour not reduced modulo 3','C76','def mod3 (i : Nat) : Fin 3 := ⟨i % 3, Nat.mod_lt _ (by decide)⟩','def mod3 (i : Nat) : Fin 3 := ⟨i % 2, lt_trans (Nat.mod_lt _ (by decide)) (by decide)⟩'),
(T3,'degenPlane3','one choice too many','C76','  let chopt ← randInt env 6','  let chopt ← randInt env 7'),
(T3,'getCentroid3','one vertex too many','C76','  let c ← forUp 0 p.nverts (⟨0, 0, 0⟩ : Vec3 K)','  let c ← forUp 0 (p.nverts + 1) (⟨0, 0, 0⟩ : Vec3 K)'),
(T2,'getCentroid2','the y coordinate summed as intended','C77','    .ok ⟨c.x + w.pos.x + w.pos.y, c.y⟩','    .ok ⟨c.x + w.pos.x, c.y + w.pos.y⟩'),
(T2,'degenPlane2','one choice too many','C77','  let chopt ← randInt env 4','  let chopt ← randInt env 5'),
(T2,'splitTest2','distance of the line not flipped','C77','-pl.n.y⟩, -pl.d⟩\n  reduce','-pl.n.y⟩, pl.d⟩\n  reduce'),
(T2,'splitTest2','stack too small','C77','  stackSize := 64','  stackSize := 16'),
(T2,'newTri2','four vertices','C77','(overwrite verts r.1) 3','(overwrite verts r.1) 4'),
(T2,'testRandomVerts2','volumes checked in spite of self-intersections','C77','(degenPlane2 env maxv) false','(degenPlane2 env maxv) true'),
(T2,'randTriPass','orientation not corrected','C77','(![v0, v2, v1], -tetvol)','(![v0, v1, v2], -tetvol)'),
(TT,'planeAt13','plane of another index','C78','  if i = 13 then','  if i = 128 then'),
(TT,'testSplitTets3','parts exchanged with the input','C78','checkParts3 mem maxv shift (m.inp i) (m.pos i) (m.neg i)','checkParts3 mem maxv shift (m.pos i) (m.inp i) (m.neg i)'),
(TT,'testSplitTets3','the polys before the split','C78','checkParts3 mem maxv shift (m.inp i) (m.pos i) (m.neg i)','checkParts3 mem maxv shift (r.1 i) (m.pos i) (m.neg i)'),
(TT,'testSplitTris2','one poly too many','C78','checkParts2 mem maxv shift (m.inp i) (m.pos i) (m.neg i)) 0 ntris','checkParts2 mem maxv shift (m.inp i) (m.pos i) (m.neg i)) 0 (ntris + 1)'),
])
gen('mutations_gridtests.jsonl',[
(TG,'forMoments3','one order too many','C79','    pure (mind + 1)) 0 (a + 1) mind) 0 (curorder + 1) mind) 0 (order + 1) 0','    pure (mind + 1)) 0 (a + 1) mind) 0 (curorder + 1) mind) 0 (order + 2) 0'),
(TG,'forMoments3','exponents in the wrong order','C79','    body mind (curorder - a) (a - k) k','    body mind k (a - k) (curorder - a)'),
(TG,'forMoments2','counter not increased','C79','    body mind (curorder - j) j\n    pure (mind + 1)','    body mind (curorder - j) j\n    pure mind'),
(TG,'boxMoment3','denominator of the 2D test','C79','(((i + 1) * (j + 1) * (k + 1) : Nat) : K)','(((i + 1) * (j + 1) : Nat) : K)'),
(TG,'boxMoment2','exponent off by one','C79','    (powK hi.y (j + 1) - powK lo.y (j + 1))\n\n/-- `test_moments` for a box (src/tests/r2d','    (powK hi.y j - powK lo.y j)\n\n/-- `test_moments` for a box (src/tests/r2d'),
(TG,'voxSum','layout of the grid','C79','rd size grid (nmom * gg + mind : Nat)','rd size grid (n * mind + gg : Nat)'),
(TG,'voxSum','one cell too few','C79','  forUp 0 n 0 fun gg s => do','  forUp 1 n 0 fun gg s => do'),
(TG,'callocSize','no room for the moments','C79','let m ← i32 (n * nmom)','let m ← i32 n'),
(TG,'toUnit','not moved into the unit cube','C79','(x + ((1 : Nat) : K)) * (','x * ('),
(TG,'voxelizeAndCheck','extent of the wrong axis','C79','(n01 * (hi 2 - lo 2))','(n01 * (hi 1 - lo 1))'),
(TG,'testVoxelization3','grid of size one','C79','  let h : K := ((1 : Nat) : K) / ((ngrid : Nat) : K)\n  let ibox ← liftC (r3dGetIbox','  let h : K := 0\n  let ibox ← liftC (r3dGetIbox'),
(TG,'picture2','rows and columns exchanged','C79','(nmom * (nj * ii + jj) + 0 : Nat)','(nmom * (ni * ii + jj) + 0 : Nat)'),
(TG,'testRasterization2','four vertices','C79','toUnit (overwrite verts r.1 v).y⟩) 3','toUnit (overwrite verts r.1 v).y⟩) 4'),
(TG,'testMoments3','lower and upper corner exchanged','C79','trials (fun _ => momentsTrial3 mem maxv shift order lo hi poly)','trials (fun _ => momentsTrial3 mem maxv shift order hi lo poly)'),
])
TN,GN,NC='Verif/Test/TestsN.lean','Verif/Test/GridTestN.lean','Verif/Test/Nonconvex.lean'
gen('mutations_ndtests.jsonl',[
(TN,'randSimplexPass','sign of the volume not corrected','C82','pure (swap01 verts, -tetvol)','pure (verts, -tetvol)'),
(TN,'randSimplexPass','vertices not exchanged back','C82','pure (swap01 verts, -tetvol)','pure (swap01 verts, tetvol)'),
(TN,'randSimplexLoop','small simplices accepted','C82','    if r.2 < minvol then randSimplexLoop env mem minvol n else pure r','    pure r'),
(TN,'getCentroidN','one vertex too many','C82','  let c ← forUp 0 p.poly.nverts (fun _ : Fin D','  let c ← forUp 0 (p.poly.nverts + 1) (fun _ : Fin D'),
(TN,'flipPlN','distance not flipped','C82','⟨fun i => -pl.n i, -pl.d⟩','⟨fun i => -pl.n i, pl.d⟩'),
(TN,'splitCheckN','the same half twice','C82','  let poly2 ← callC fun c => rNdClip maxv (mem.sd c) opoly [flipPlN pl]\n  let om','  let poly2 ← callC fun c => rNdClip maxv (mem.sd c) opoly [pl]\n  let om'),
(TN,'splitCheckN','whole and part exchanged','C82','  checkBound om m1 m2','  checkBound m1 om m2'),
(TN,'splitPlaneN','planes through vertices allowed','C82','  if (List.range p.poly.nverts).any fun v => decide (distN pl (p.poly.verts v).pos = 0) then stopT .nonfinite\n  else pure pl','  pure pl'),
(TN,'splitTestN','second part clipped by the same plane','C82','  flip := flipPlN','  flip := id'),
(TN,'splitTestN','stack too small','C82','  stackSize := 64','  stackSize := 4'),
(TN,'splitTestN','parts of any volume kept','C82','  keep := fun v => decide (minVol < v)','  keep := fun _ => true'),
(TN,'testNondegenerateN','depth 100','C82','splitTrialN env mem maxv 6','splitTrialN env mem maxv 100'),
(TN,'sameVolN','twice the volume','C82','(opoly : PolyN D K) (tetvol : K) : T Unit := do\n  let om ← callC fun c => rNdReduce maxv sqrt (mem.red c) opoly\n  assertEq om tetvol tolFail','(opoly : PolyN D K) (tetvol : K) : T Unit := do\n  let om ← callC fun c => rNdReduce maxv sqrt (mem.red c) opoly\n  assertEq (om + om) tetvol tolFail'),
(GN,'nvoxelsN','extents added','C83','i32 (n * (hi i - lo i))','i32 (n + (hi i - lo i))'),
(GN,'gridDxN','spacing of the whole box','C83','((1 : Nat) : K) / ((ngrid : Nat) : K)','((1 : Nat) : K)'),
(GN,'simplexOnGrid','simplex not moved into the unit box','C83','fun v i => toUnit (r.1 v i)','r.1'),
(GN,'simplexOnGrid','index box upside down','C83','pure (poly, tmom, ibox.1, ibox.2)','pure (poly, tmom, ibox.2, ibox.1)'),
(GN,'voxelizeAndCheckN','grid with old contents','C83','poly lo hi (fun _ => 0) dx','poly lo hi (fun _ => ((1 : Nat) : K)) dx'),
(GN,'voxelizeAndCheckN','one cell too many','C83','grid 1 0 nvoxels.toNat','grid 1 0 (nvoxels.toNat + 1)'),
(GN,'voxelizeAndCheckN','one cell too few','C83','grid 1 0 nvoxels.toNat','grid 1 0 (nvoxels.toNat - 1)'),
(NC,'zigzag3','neighbours of the lower ring exchanged','C80','![((v + 1) % (2 * nz) : Nat), ((v + 2 * nz - 1) % (2 * nz) : Nat),','![((v + 2 * nz - 1) % (2 * nz) : Nat), ((v + 1) % (2 * nz) : Nat),'),
(NC,'zigzag3','upper ring not raised','C80','zoff + ((v % 2 : Nat) : K), ((1 : Nat) : K)⟩','zoff + ((v % 2 : Nat) : K), 0⟩'),
(NC,'splitCheck3','the same half twice','C80','[⟨⟨-pl.n.x, -pl.n.y, -pl.n.z⟩, -pl.d⟩]','[pl]'),
(NC,'zigPlane','third plane lower','C80','(((1 : Nat) : K) + zoff)⟩]','(((1 : Nat) : K) + zoff + zoff)⟩]'),
(NC,'tetTetTrial','clipped by its own faces','C81','(r3dTetFaces env.sqrt tinyT s.1)','(r3dTetFaces env.sqrt tinyT r.1)'),
(NC,'triTriTrial','only two lines','C81','[fs 0, fs 1, fs 2]','[fs 0, fs 1]'),
])
