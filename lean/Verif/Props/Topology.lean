import Verif.Proofs.Topology
import Verif.Proofs.Numeral
import Verif.Props.Document
import Verif.Props.Fabric

/-
C91 to C93: topology files.
-/

namespace NPE.Props

open Fabric Spec.Fabric Spec.Analyze Spec Spec.Doc Out

/-! ### C91: loading of topology files -/

/-- C91.  A topology file that says nothing twice is loaded as written, and the table from fabric nodes to chips answers
like the table of the chips. -/
theorem C91_loaded {j : Json} {c : Contents} (h : Holds j c) (hc : c.config ∈ fabrics) (h1 : c.Once) :
    ∃ L, loadTopology j = .ok L ∧ L.topo = c.topology ∧ ∀ n, L.devices.lookup n = c.topology.deviceOf n := by
  have hn : ((c.nodes.map fun e => ((e.1 : Int), e.2)).map (·.1)).Nodup := by
    rw [List.map_map]
    have := h1.nodes.map (f := fun (n : Nat) => (n : Int)) (fun a b hab => by simpa using hab)
    rwa [List.map_map] at this
  have hp : ((c.ports.map fun e => ((e.1 : Int), e.2)).map (·.1)).Nodup := by
    rw [List.map_map]
    have := h1.ports.map (f := fun (n : Nat) => (n : Int)) (fun a b hab => by simpa using hab)
    rwa [List.map_map] at this
  rw [loadTopology_ok h hc, loadTables_ok h]
  refine ⟨_, rfl, ?_, ?_⟩
  · simp only
    rw [buildDict_of_nodup _ h1.channels, buildDict_of_nodup _ hn, buildDict_of_nodup _ hp]
    rfl
  · intro n
    exact devices_eq hn c.topology n (buildDict_of_nodup _ hn).symm

/-- C91.  When a file says something twice, what it says last counts. -/
theorem C91_last {j : Json} {c : Contents} (h : Holds j c) (hc : c.config ∈ fabrics) :
    ∃ L, loadTopology j = .ok L ∧
      (∀ k, L.topo.planes.lookup k = c.channelList.reverse.lookup k) ∧
      (∀ n : Nat, L.topo.nodes.lookup (n : Int) = c.nodes.reverse.lookup n) ∧
      (∀ n : Nat, L.topo.ethCoord.lookup (n : Int) = c.ports.reverse.lookup n) := by
  have key : ∀ (l : List (Nat × (Int × Int))) (n : Nat),
      (l.map fun e => ((e.1 : Int), e.2)).lookup (n : Int) = l.lookup n := by
    intro l n
    induction l with
    | nil => rfl
    | cons e l ih =>
      rw [List.map_cons, List.lookup_cons, List.lookup_cons, ih]
      by_cases hn : n = e.1
      · rw [hn]; simp
      · rw [beq_false_of_ne hn, beq_false_of_ne (fun h => hn (by exact_mod_cast h))]
  rw [loadTopology_ok h hc, loadTables_ok h]
  refine ⟨_, rfl, fun k => buildDict_lookup _ k, fun n => ?_, fun n => ?_⟩
  · simp only
    rw [buildDict_lookup, ← List.map_reverse, key]
  · simp only
    rw [buildDict_lookup, ← List.map_reverse, key]

/-- What every accepted file has in common. -/
theorem loadTopology_inv {j : Json} {L : Loaded} (h : loadTopology j = .ok L) :
    ∃ meshes nodes config cluster, (buildDict meshes).length ≤ 1 ∧ supported (configName config) = true ∧
      pyGet j "fabric_config" = .ok config ∧ pyGet j "cluster_type" = .ok cluster ∧ cluster ≠ none ∧ cluster ≠ some .null ∧
      (pyGet j "device_id_to_fabric_node_id" >>= pairEntries) = .ok nodes ∧
      ∃ planes coords, L = ⟨⟨buildDict meshes, configName config, clusterName (cluster.getD .null), buildDict planes,
        buildDict nodes, buildDict coords⟩, buildDict (nodes.map fun e => (e.2, e.1))⟩ := by
  unfold loadTopology at h
  obtain ⟨config, hconfig, h⟩ := bind_eq_ok.mp h
  obtain ⟨cluster, hcluster, h⟩ := bind_eq_ok.mp h
  obtain ⟨l, _, h⟩ := bind_eq_ok.mp h
  obtain ⟨meshes, _, h⟩ := bind_eq_ok.mp h
  split at h
  · cases h
  rename_i hs
  obtain ⟨cl, hcl, h⟩ := bind_eq_ok.mp h
  split at h
  · cases h
  rename_i hlen
  unfold loadTables at h
  obtain ⟨l', _, h⟩ := bind_eq_ok.mp h
  obtain ⟨planes, _, h⟩ := bind_eq_ok.mp h
  obtain ⟨nodes, hn, h⟩ := bind_eq_ok.mp h
  obtain ⟨coords, _, h⟩ := bind_eq_ok.mp h
  have hcl' : cluster = some cl ∧ cl ≠ .null := by
    cases cluster with
    | none => cases hcl
    | some v =>
      cases v with
      | null => cases hcl
      | _ => exact ⟨congrArg some (Out.ok.inj hcl), fun h => by rw [← Out.ok.inj hcl] at h; cases h⟩
  refine ⟨meshes, nodes, config, cluster, by omega, not_not.mp hs, hconfig, hcluster, ?_, ?_, hn, planes.flatten, coords, ?_⟩
  · rw [hcl'.1]; exact Option.some_ne_none _
  · rw [hcl'.1]
    exact fun h => hcl'.2 (Option.some.inj h)
  · rw [← Out.ok.inj h, hcl'.1]
    rfl

/-- C91.  Whatever the file: a topology that is accepted has a supported fabric, at most one mesh, and tables in which
no key stands twice. -/
theorem C91_accepted {j : Json} {L : Loaded} (h : loadTopology j = .ok L) :
    L.topo.fabricConfig ∈ fabrics ∧ L.topo.meshShapes.length ≤ 1 ∧ (L.topo.meshShapes.map (·.1)).Nodup ∧
      (L.topo.planes.map (·.1)).Nodup ∧ (L.topo.nodes.map (·.1)).Nodup ∧ (L.topo.ethCoord.map (·.1)).Nodup ∧
      (L.devices.map (·.1)).Nodup := by
  obtain ⟨meshes, nodes, config, cluster, h1, h2, _, _, _, _, _, planes, coords, rfl⟩ := loadTopology_inv h
  exact ⟨(supported_iff _).mp h2, h1, buildDict_nodup _, buildDict_nodup _, buildDict_nodup _, buildDict_nodup _,
    buildDict_nodup _⟩

/-- C91.  Whatever the file: all keys of the table of chips are numerals, every one of them is in the loaded table, and
what is in the loaded table stands in the file. -/
theorem C91_keys {j : Json} {L : Loaded} (h : loadTopology j = .ok L) {l : List (String × Json)}
    (hl : j.field "device_id_to_fabric_node_id" = some (.obj l)) :
    (∀ e ∈ l, ∃ (n : Int) (p : Int × Int), Numeral e.1.toList n ∧ e.2 = .arr [.int p.1, .int p.2] ∧
      ∃ q, L.topo.nodes.lookup n = some q) ∧
    ∀ (n : Int) (p : Int × Int), L.topo.nodes.lookup n = some p →
      ∃ e ∈ l, Numeral e.1.toList n ∧ e.2 = .arr [.int p.1, .int p.2] := by
  obtain ⟨meshes, nodes, config, cluster, _, _, _, _, _, _, hn, planes, coords, rfl⟩ := loadTopology_inv h
  rw [pyGet_field hl] at hn
  have hm : Out.mapM pairEntry l = .ok nodes := hn
  rw [mapM_eq_ok] at hm
  have entry : ∀ e p, pairEntry e = .ok p → Numeral e.1.toList p.1 ∧ e.2 = .arr [.int p.2.1, .int p.2.2] := by
    intro e p he
    unfold pairEntry at he
    split at he
    · rename_i k a b hk hv
      obtain ⟨x, hx, he⟩ := bind_eq_ok.mp he
      obtain ⟨y, hy, he⟩ := bind_eq_ok.mp he
      rw [← Out.ok.inj he]
      have num : ∀ a x, number (some a) = .ok x → a = .int x := by
        intro a x hx
        unfold number at hx
        split at hx
        · rename_i heq; rw [Option.some.inj heq, Out.ok.inj hx]
        · cases hx
      exact ⟨pyInt_iff.mp hk, by rw [hv, num a x hx, num b y hy]⟩
    · cases he
  constructor
  · intro e he
    obtain ⟨i, hi⟩ := List.mem_iff_getElem?.mp he
    have hlt := (List.getElem?_eq_some_iff.mp hi).1
    have h2 := (List.forall₂_iff_get.mp hm).2 i hlt (by rw [← hm.length_eq]; exact hlt)
    simp only [List.get_eq_getElem] at h2
    have e1 : l[i] = e := (List.getElem?_eq_some_iff.mp hi).2
    rw [e1] at h2
    obtain ⟨a, b⟩ := entry _ _ h2
    refine ⟨_, _, a, b, ?_⟩
    show ∃ q, (buildDict nodes).lookup _ = some q
    rw [buildDict_lookup]
    cases hq : nodes.reverse.lookup (nodes[i]'(by rw [← hm.length_eq]; exact hlt)).1 with
    | some q => exact ⟨q, rfl⟩
    | none =>
      exfalso
      rw [List.lookup_eq_none_iff] at hq
      have := hq _ (List.mem_reverse.mpr (List.getElem_mem (l := nodes) (n := i) (by rw [← hm.length_eq]; exact hlt)))
      simp at this
  · intro n p hp
    have hp : (buildDict nodes).lookup n = some p := hp
    rw [buildDict_lookup] at hp
    have hmem : (n, p) ∈ nodes := List.mem_reverse.mp (mem_of_lookup hp)
    obtain ⟨i, hi⟩ := List.mem_iff_getElem?.mp hmem
    have hlt := (List.getElem?_eq_some_iff.mp hi).1
    have hlt' : i < l.length := by rw [hm.length_eq]; exact hlt
    have h2 := (List.forall₂_iff_get.mp hm).2 i hlt' hlt
    simp only [List.get_eq_getElem] at h2
    have e1 : nodes[i] = (n, p) := (List.getElem?_eq_some_iff.mp hi).2
    rw [e1] at h2
    exact ⟨l[i], List.getElem_mem hlt', entry _ _ h2⟩

/-- Keys with signs, spaces and underscores. -/
example : Numeral " -1_0\n".toList (-10) ∧ Numeral "+07".toList 7 ∧ ¬ Numeral "1__0".toList 10 ∧ ¬ Numeral "- 1".toList (-1) :=
  ⟨pyInt_iff.mp (by decide), pyInt_iff.mp (by decide), fun h => absurd (pyInt_iff.mpr h) (by decide),
    fun h => absurd (pyInt_iff.mpr h) (by decide)⟩

/-- C91.  A file without a supported fabric or without a cluster type is refused. -/
theorem C91_refused {j : Json} (h : (∀ s, j.field "fabric_config" = some (.str s) → s ∉ fabrics) ∨
      j.field "cluster_type" = none ∨ j.field "cluster_type" = some .null) (L : Loaded) : loadTopology j ≠ .ok L := by
  intro hL
  obtain ⟨meshes, nodes, config, cluster, _, h2, h3, h4, h5, h6, _⟩ := loadTopology_inv hL
  have get : ∀ {k : String} {x : Option Json}, pyGet j k = .ok x → j.field k = x := by
    intro k x hx
    unfold pyGet at hx
    split at hx
    · exact Out.ok.inj hx
    · cases hx
  rcases h with h | h | h
  · rw [get h3] at h
    have hs := (supported_iff _).mp h2
    cases config with
    | none => exact absurd hs (by decide)
    | some v =>
      cases v with
      | str s => exact h s rfl hs
      | null => exact absurd hs (by decide)
      | _ => exact absurd (show "UNKNOWN" ∈ fabrics from hs) (by decide)
  · exact h5 (by rw [← get h4]; exact h)
  · exact h6 (by rw [← get h4]; exact h)

/-- C91 does not hold when two keys are the same number: chip 1 is written as `1` and as `01`.  The table of chips gives
the place of the second entry, while the table of fabric nodes still leads from the place of the first entry to chip 1. -/
theorem C91_violated : ∃ (j : Json) (L : Loaded), loadTopology j = .ok L ∧ L.topo.nodes = [(1, (0, 5))] ∧
    L.devices.lookup (0, 4) = some 1 ∧ L.topo.deviceOf (0, 4) = none := by
  refine ⟨.obj [("fabric_config", .str "FABRIC_1D"), ("cluster_type", .str "T3K"),
    ("device_id_to_fabric_node_id", .obj [("1", .arr [.int 0, .int 4]), ("01", .arr [.int 0, .int 5])])], _, rfl, ?_, ?_, ?_⟩ <;>
  decide +kernel

/-- The topology files of the examples in the repository, which have neither `fabric_config` nor `cluster_type`, are
refused. -/
theorem C91_samples (pairs channels coords : Json) (L : Loaded) :
    loadTopology (.obj [("forwarding_channel_pairs", pairs), ("inter_device_channel_pairs", channels),
      ("eth_chan_to_coord", coords)]) ≠ .ok L :=
  C91_refused (.inr (.inl rfl)) L

/-- Contents of a small topology file: a ring of two chips, connected by one plane. -/
def sampleContents : Contents where
  config := "FABRIC_1D_RING"
  cluster := "N300"
  mesh := some (0, (1, 2))
  channels := [(0, [(0, fun d => if d = .E then some 8 else none)]), (1, [(0, fun d => if d = .W then some 0 else none)])]
  nodes := [(0, (0, 0)), (1, (0, 1))]
  ports := [(0, (9, 0)), (8, (9, 6))]

/-- The file. -/
def sampleTopology : Json := .obj [
  ("cluster_type", .str "N300"),
  ("fabric_config", .str "FABRIC_1D_RING"),
  ("mesh_shapes", .arr [.obj [("mesh_id", .int 0), ("shape", .arr [.int 1, .int 2])]]),
  ("routing_planes", .arr [
    .obj [("device_id", .int 0), ("device_routing_planes", .arr [
      .obj [("routing_plane_id", .int 0), ("ethernet_channels", .obj [("E", .int 8), ("N", .null)])]])],
    .obj [("device_id", .int 1), ("device_routing_planes", .arr [
      .obj [("routing_plane_id", .int 0), ("ethernet_channels", .obj [("W", .int 0)])]])]]),
  ("device_id_to_fabric_node_id", .obj [("0", .arr [.int 0, .int 0]), ("1", .arr [.int 0, .int 1])]),
  ("eth_chan_to_coord", .obj [("0", .arr [.int 9, .int 0]), ("8", .arr [.int 9, .int 6])])]

theorem sample_holds : Holds sampleTopology sampleContents where
  config := rfl
  cluster := rfl
  mesh := ⟨_, rfl, .cons ⟨rfl, rfl⟩ .nil⟩
  channels := ⟨_, rfl, .cons ⟨rfl, _, rfl, .cons ⟨rfl, _, rfl, fun d => by
      cases d
      · exact .inr rfl
      · exact .inl rfl
      · exact rfl
      · exact .inl rfl⟩ .nil⟩ (.cons ⟨rfl, _, rfl, .cons ⟨rfl, _, rfl, fun d => by
      cases d
      · exact .inl rfl
      · exact .inl rfl
      · exact .inl rfl
      · exact rfl⟩ .nil⟩ .nil)⟩
  nodes := ⟨_, rfl, .cons ⟨.one 0 (by decide), rfl⟩ (.cons ⟨.one 1 (by decide), rfl⟩ .nil)⟩
  ports := ⟨_, rfl, .cons ⟨.one 0 (by decide), rfl⟩ (.cons ⟨.one 8 (by decide), rfl⟩ .nil)⟩

example : sampleContents.Once := ⟨by decide, by decide, by decide⟩

/-- The loaded file leads from chip 0 over its channel 8 to chip 1. -/
example : (match loadTopology sampleTopology with
    | .ok L => match L.topo.next 0 .E with
      | .ok r => some (r.1, L.topo.planes.lookup (0, 0, r.2), L.topo.planes.lookup (1, 0, r.2.inverse))
      | _ => none
    | _ => none) = some (1, some 8, some 0) := by
  decide +kernel

/-! ### C92: the script and the timeline agree about the places of chips -/

/-- The chips of a file with one mesh that is full, each at a place of its own. -/
structure FullMesh (c : Contents) (m ns ew : Int) : Prop where
  mesh : c.mesh = some (m, (ns, ew))
  once : c.Once
  places : (c.nodes.map (·.2)).Nodup
  inside : ∀ e ∈ c.nodes, e.2.1 = m ∧ 0 ≤ e.2.2 ∧ e.2.2 < ns * ew
  full : ∀ k, 0 ≤ k → k < ns * ew → ∃ d, (d, (m, k)) ∈ c.nodes
  shape : 0 < ns ∧ 0 < ew ∧ ns < 2147483648 ∧ ew < 2147483648 ∧ ns * ew ≤ 2147483648
  id : 0 ≤ m ∧ m < 4294967296

/-- C92.  A topology file with a full mesh is loaded as a proper topology, so that C57 and C74 to C76 apply. -/
theorem C92_proper {c : Contents} {m ns ew : Int} (h : FullMesh c m ns ew) : Proper c.topology where
  ids := by
    show ((c.nodes.map fun e => ((e.1 : Int), e.2)).map (·.1)).Nodup
    rw [List.map_map]
    have := h.once.nodes.map (f := fun (n : Nat) => (n : Int)) (fun a b hab => by simpa using hab)
    rwa [List.map_map] at this
  places := by
    show ((c.nodes.map fun e => ((e.1 : Int), e.2)).map (·.2)).Nodup
    rw [List.map_map]
    exact h.places
  meshes := by
    show (c.mesh.toList.map (·.1)).Nodup
    rw [h.mesh]
    simp
  placed := by
    intro e he
    obtain ⟨x, hx, rfl⟩ := List.mem_map.mp he
    obtain ⟨h1, h2, h3⟩ := h.inside x hx
    refine ⟨ns, ew, ?_, h.shape.2.1, h2, h3⟩
    show (x.2.1, (ns, ew)) ∈ c.mesh.toList
    rw [h.mesh, h1]
    exact List.mem_cons_self
  full := by
    intro m' ns' ew' hm x y hx0 hx1 hy0 hy1
    have hm' : (m', (ns', ew')) ∈ c.mesh.toList := hm
    rw [h.mesh] at hm'
    obtain ⟨rfl, rfl, rfl⟩ : m' = m ∧ ns' = ns ∧ ew' = ew := by simpa using hm'
    have h0 : 0 ≤ y * ew' + x := by
      have := mul_nonneg hy0 (by omega : (0 : Int) ≤ ew')
      omega
    have h1 : y * ew' + x < ns' * ew' := by
      have : (y + 1) * ew' ≤ ns' * ew' := Int.mul_le_mul_of_nonneg_right (by omega) (by omega)
      rw [add_mul, one_mul] at this
      omega
    obtain ⟨d, hd⟩ := h.full _ h0 h1
    exact ⟨d, List.mem_map.mpr ⟨_, hd, rfl⟩⟩

/-- C92.  For a file with a full mesh: where the script sees a chip, there every timeline document of the simulator
shows it, and the other way round. -/
theorem C92_places {j : Json} {c : Contents} (hj : Holds j c) {m ns ew : Int} (h : FullMesh c m ns ew) (fp : FP)
    (cfg : Config) (dev : Device) (ord : List (Int × List Int) → List (Int × List Int)) (hd : 1 < dev.chips)
    (d : RunData) (region : Option Region) (doc : Json) (hdoc : documentV1 fp cfg dev ord (.doc j) d region = .ok doc) :
    ∃ shown, chips? doc = some shown ∧ shown.length = c.nodes.length ∧
      ∀ (chip : Nat) (x y : Int), Sits c.topology chip m ns ew x y ↔
        ∃ name, Denotes name.toList chip ∧ (name, some (x, y)) ∈ shown := by
  obtain ⟨l, hl, hf⟩ := hj.nodes
  obtain ⟨ml, hml, hmf⟩ := hj.mesh
  have hew := h.shape.2.1
  -- the chips as the document sees them
  let place : (String × Json) × (Nat × (Int × Int)) → ChipPlace := fun p => ⟨p.1.1, p.2.2.1, p.2.2.2 % ew, p.2.2.2 / ew⟩
  have hz : List.Forall₂ PairIs l c.nodes := hf
  have hlen := hz.length_eq
  have hzip : ∀ p ∈ l.zip c.nodes, PairIs p.1 p.2 := by
    intro p hp
    exact (List.forall₂_iff_zip.mp hz).2 hp
  have hone : OneMesh j ns ew ((l.zip c.nodes).map place) := by
    refine ⟨?_, ?_, ⟨by have := h.shape; omega, by have := h.shape; omega, by omega, by have := h.shape; omega, h.shape.2.2.2.2⟩, ?_, ?_⟩
    · rw [hl]
      refine congrArg (fun x => some (Json.obj x)) ?_
      rw [List.map_map]
      have : l = (l.zip c.nodes).map (·.1) := by rw [List.map_fst_zip hlen.le]
      conv_lhs => rw [this]
      apply List.map_congr_left
      intro p hp
      have h1 := (hzip p hp).2
      show p.1 = (p.1.1, Json.arr [.int p.2.2.1, .int (p.2.2.2 / ew * ew + p.2.2.2 % ew)])
      rw [Int.ediv_mul_add_emod, ← h1]
    · rw [h.mesh] at hmf
      simp only [Option.toList_some] at hmf
      cases hmf with
      | cons h1 h2 =>
        cases h2
        exact ⟨_, hml, h1.2⟩
    · intro q hq
      obtain ⟨p, hp, rfl⟩ := List.mem_map.mp hq
      have hi := h.inside p.2 (List.of_mem_zip hp).2
      refine ⟨Int.emod_nonneg _ (by omega), Int.emod_lt_of_pos _ hew, Int.ediv_nonneg hi.2.1 (by omega), ?_⟩
      show p.2.2.2 / ew < ns
      exact Int.ediv_lt_of_lt_mul hew hi.2.2
    · intro q hq
      obtain ⟨p, hp, rfl⟩ := List.mem_map.mp hq
      show 0 ≤ p.2.2.1 ∧ p.2.2.1 < 4294967296
      rw [(h.inside p.2 (List.of_mem_zip hp).2).1]
      exact h.id
  refine ⟨_, C88_mesh fp cfg dev ord j doc ns ew _ hd hone d region hdoc, ?_, ?_⟩
  · rw [List.length_map, List.length_map, List.length_zip, hlen, min_self]
  intro chip x y
  constructor
  · intro hs
    have hx0 := hs.x0
    have hx1 := hs.x1
    obtain ⟨e, he, heq⟩ := List.mem_map.mp hs.node
    have h1 : e.1 = chip := by
      have h0 : (e.1 : Int) = (chip : Int) := congrArg Prod.fst heq
      exact_mod_cast h0
    have h2 : e.2 = (m, y * ew + x) := congrArg Prod.snd heq
    obtain ⟨i, hi, rfl⟩ := List.getElem_of_mem he
    have hi' : i < (l.zip c.nodes).length := by rw [List.length_zip, hlen, min_self]; exact hi
    have hp := List.getElem_mem hi'
    rw [List.getElem_zip] at hp
    refine ⟨(l[i]'(by omega)).1, h1 ▸ (hzip _ hp).1, ?_⟩
    rw [List.map_map]
    refine List.mem_map.mpr ⟨_, hp, ?_⟩
    show ((l[i]'(by omega)).1, some ((c.nodes[i]).2.2 % ew, (c.nodes[i]).2.2 / ew)) = _
    rw [h2]
    simp only
    rw [add_comm, Int.add_mul_emod_self_right, Int.emod_eq_of_lt hx0 hx1, Int.add_mul_ediv_right _ _ (by omega),
      Int.ediv_eq_zero_of_lt hx0 hx1, zero_add]
  · rintro ⟨name, hname, hmem⟩
    rw [List.map_map] at hmem
    obtain ⟨p, hp, heq⟩ := List.mem_map.mp hmem
    have hpi := hzip p hp
    have hq := (List.of_mem_zip hp).2
    have h1 : p.1.1 = name := congrArg Prod.fst heq
    have h2 : (p.2.2.2 % ew, p.2.2.2 / ew) = (x, y) := Option.some.inj (congrArg Prod.snd heq)
    obtain ⟨rfl, rfl⟩ := Prod.mk.inj h2
    have hi := h.inside p.2 hq
    have hchip : p.2.1 = chip := by
      have := pyInt_denotes hpi.1
      rw [h1, pyInt_denotes hname] at this
      exact_mod_cast (Option.some.inj this).symm
    refine ⟨?_, ?_, Int.emod_nonneg _ (by omega), Int.emod_lt_of_pos _ hew, Int.ediv_nonneg hi.2.1 (by omega),
      Int.ediv_lt_of_lt_mul hew hi.2.2⟩
    · rw [Int.ediv_mul_add_emod]
      refine List.mem_map.mpr ⟨p.2, hq, ?_⟩
      rw [hchip, ← hi.1]
    · show (m, (ns, ew)) ∈ c.mesh.toList
      rw [h.mesh]
      exact List.mem_cons_self

/-- C92 does not hold when the chips name another mesh than the one that is described: the timeline shows the chip,
the script cannot move from it. -/
theorem C92_violated : ∃ (j : Json) (L : Loaded), loadTopology j = .ok L ∧
    (∀ dev : Device, 1 < dev.chips →
      chipsSection dev (.doc j) = .ok (some [("0", .arr [.int 1, .int 0, .int 0, .int 0])])) ∧
    ∀ d, L.topo.next 0 d = .std .pyKey := by
  refine ⟨.obj [("fabric_config", .str "FABRIC_1D"), ("cluster_type", .str "T3K"),
    ("mesh_shapes", .arr [.obj [("mesh_id", .int 0), ("shape", .arr [.int 1, .int 2])]]),
    ("device_id_to_fabric_node_id", .obj [("0", .arr [.int 7, .int 1])])], _, rfl, ?_, ?_⟩
  · intro dev h
    unfold chipsSection
    rw [if_pos h]
    rfl
  · intro d
    cases d <;> rfl

example : FullMesh sampleContents 0 1 2 where
  mesh := rfl
  once := ⟨by decide, by decide, by decide⟩
  places := by decide
  inside := by decide
  full := by
    intro k h0 h1
    have : k = 0 ∨ k = 1 := by omega
    rcases this with rfl | rfl
    · exact ⟨0, by decide⟩
    · exact ⟨1, by decide⟩
  shape := by decide
  id := by decide

/-! ### C93: comments in topology files -/

/-- C93 (missing: text with slashes, block comments that touch another comment or hold `//`).  A text with comments is
stripped of its comments and of nothing else. -/
theorem C93_partial (ps : List Piece) (h : ∀ p ∈ ps, p.Plain) (hs : ps.IsChain Spaced) :
    stripComments (ps.flatMap Piece.written) = ps.flatMap Piece.meaning := by
  -- line comments first
  let half : Piece → List Char := fun p => match p with | .line _ => ['\n'] | p => p.written
  have h1 : dropLineComments false (ps.flatMap Piece.written) = ps.flatMap half := by
    induction ps with
    | nil => rfl
    | cons p ps ih =>
      have ih := ih (fun q hq => h q (List.mem_cons_of_mem _ hq)) hs.tail
      have hp := h p List.mem_cons_self
      rw [List.flatMap_cons, List.flatMap_cons, ← ih]
      cases p with
      | text s =>
        apply dropLine_keep
        · intro hi
          exact hp (hi.subset (by decide))
        · rintro x y rfl
          exact absurd (List.mem_append_right _ List.mem_cons_self) hp
      | line s =>
        show dropLineComments false ('/' :: '/' :: ((s ++ ['\n']) ++ _)) = _
        rw [dropLine_begin, List.append_assoc]
        exact dropLine_skip hp
      | block s =>
        apply dropLine_keep
        · intro hi
          obtain ⟨a, b, hab⟩ := hi
          have hw : (Piece.block s).written = '/' :: '*' :: (s ++ ['*', '/']) := rfl
          rw [hw] at hab
          apply hp.2
          -- the two slashes lie within the body
          match a with
          | [] => exact absurd (List.cons.inj (List.cons.inj hab).2).1 (by decide)
          | [_] => exact absurd (List.cons.inj (List.cons.inj hab).2).1 (by decide)
          | x :: y :: a =>
            have hab : a ++ "//".toList ++ b = s ++ ['*', '/'] := (List.cons.inj (List.cons.inj hab).2).2
            rcases List.eq_nil_or_concat b with rfl | ⟨b, z, rfl⟩
            · rw [List.append_nil] at hab
              have h1 : (a ++ ['/']) ++ ['/'] = (s ++ ['*']) ++ ['/'] := by simpa using hab
              have h2 := List.append_cancel_right h1
              have h3 := congrArg List.getLast? h2
              simp at h3
            · rcases List.eq_nil_or_concat b with rfl | ⟨b, w, rfl⟩
              · have h1 : (a ++ "//".toList) ++ [z] = (s ++ ['*']) ++ ['/'] := by simpa using hab
                have h2 := (List.append_inj_left' h1 rfl)
                have h3 : (a ++ ['/']) ++ ['/'] = s ++ ['*'] := by simpa using h2
                have h4 := List.append_inj_right' h3 rfl
                exact absurd (List.cons.inj h4).1 (by decide)
              · have h1 : (a ++ "//".toList ++ b) ++ [w, z] = s ++ ['*', '/'] := by simpa using hab
                have h2 := List.append_inj_left' h1 rfl
                exact ⟨a, b, h2⟩
        · intro x y _ hr
          cases ps with
          | nil => cases hr
          | cons q ps =>
            obtain ⟨c, t, rfl⟩ := (List.isChain_cons_cons.mp hs).1 s rfl
            have hq := h _ (List.mem_cons_of_mem _ List.mem_cons_self)
            rw [List.flatMap_cons] at hr
            have : c = '/' := (List.cons.inj hr).1
            exact hq (this ▸ List.mem_cons_self)
  unfold stripComments
  rw [h1]
  clear h1 hs
  induction ps with
  | nil =>
    show dropBlockComments [] = []
    rw [dropBlockComments]
  | cons p ps ih =>
    have ih := ih (fun q hq => h q (List.mem_cons_of_mem _ hq))
    have hp := h p List.mem_cons_self
    rw [List.flatMap_cons, List.flatMap_cons, ← ih]
    cases p with
    | text s => exact dropBlock_keep hp
    | line s => exact dropBlock_keep (w := ['\n']) (by decide)
    | block s =>
      show dropBlockComments ('/' :: '*' :: (s ++ "*/".toList ++ _)) = _
      rw [List.append_assoc]
      exact dropBlock_comment hp.1

/-- C93 does not hold for text with two slashes: a string with an address loses its end and the rest of the line. -/
theorem C93_violated_string :
    stripComments "{\"url\": \"http://host\", \"n\": 1}".toList = "{\"url\": \"http:".toList := by
  decide +kernel

/-- C93 does not hold for two block comments in a row, nor for a block comment that holds two slashes: the first comment
stays, and the rest of the line is lost. -/
theorem C93_violated_block : stripComments "/*a*//*b*/1".toList = "/*a*".toList ∧
    stripComments "/* see http://host */ 1\n2".toList = "/* see http:\n2".toList := by
  constructor <;> decide +kernel

example : stripComments "[1, // one\n 2 /* two\n */, 3]".toList = "[1, \n 2 , 3]".toList := by decide +kernel

end NPE.Props
