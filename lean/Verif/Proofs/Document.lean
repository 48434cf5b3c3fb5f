import Verif.Spec.Document
import Verif.Proofs.Analyze
import Verif.Proofs.Scan
import Verif.Proofs.TimelineRun
import Verif.Proofs.Zones

/-
Reading back documents, and names of files.
-/

namespace NPE
open Out Spec.Doc

/-! ### Reading -/

theorem items_map {α β : Type} {f : Json → Option β} {g : α → Json} {h : α → β} (l : List α)
    (hfg : ∀ x ∈ l, f (g x) = some (h x)) : items f (l.map g) = some (l.map h) := by
  induction l with
  | nil => rfl
  | cons a l ih =>
    rw [List.map_cons]
    unfold items
    rw [hfg a (by simp), ih fun x hx => hfg x (by simp [hx])]
    rfl

theorem items_self {α : Type} {f : Json → Option α} {g : α → Json} (l : List α)
    (hfg : ∀ x ∈ l, f (g x) = some x) : items f (l.map g) = some l := by
  rw [items_map (h := id) l hfg, List.map_id]

theorem nat?_int (n : Nat) : nat? (.int n) = some n := by
  change (if 0 ≤ (n : Int) then some (n : Int).toNat else none) = some n
  rw [if_pos (by omega)]
  rfl

theorem coord?_json (c : Coord) : coord? c.json = some c := rfl

theorem hop?_name (k : HopKind) : hop? k.name = some k := by
  cases k with
  | entry n => cases n <;> rfl
  | link t => cases t <;> rfl
  | exit n => cases n <;> rfl

theorem noc?_name (n : Noc) : noc? (.str n.name) = some n := by cases n <;> rfl

theorem link?_json (h : Coord × HopKind) : link? (hopJson h) = some h := by
  unfold hopJson link?
  simp only
  rw [hop?_name]
  rfl

theorem demand?_json (d : Coord × HopKind × ℚ) : demand? (demandJson d) = some d := by
  unfold demandJson demand?
  simp only
  rw [hop?_name]
  rfl

theorem segment?_json (s : Segment) : segment? s.json = some s := by
  have h1 : get s.json "src" coord? = some s.src := rfl
  have h2 : get s.json "dst" (list? coord?) = some s.dst := items_self s.dst fun c _ => coord?_json c
  have h3 : get s.json "noc_type" noc? = some s.noc := noc?_name s.noc
  have h4 : get s.json "injection_rate" fig? = some s.injectionRate := rfl
  have h5 : get s.json "start_cycle" nat? = some s.startc := nat?_int _
  have h6 : get s.json "end_cycle" nat? = some s.endc := nat?_int _
  have h7 : get s.json "links" (list? link?) = some s.links := items_self s.links fun c _ => link?_json c
  unfold segment?
  rw [h1, h2, h3, h4, h5, h6, h7]
  rfl

theorem transfer?_json (t : LogicalTransfer) : transfer? t.json = some t := by
  have h1 : get t.json "id" id? = some t.id := rfl
  have h2 : get t.json "src" coord? = some t.src := rfl
  have h3 : get t.json "total_bytes" nat? = some t.totalBytes := nat?_int _
  have h4 : get t.json "start_cycle" nat? = some t.startc := nat?_int _
  have h5 : get t.json "noc_event_type" text? = some t.eventType := rfl
  have h6 : get t.json "fabric_event_type" flag? = some t.fabric := rfl
  have h7 : get t.json "zones" text? = some t.zones := rfl
  have h8 : get t.json "end_cycle" nat? = some t.endc := nat?_int _
  have h9 : get t.json "dst" (list? coord?) = some t.dst := items_self t.dst fun c _ => coord?_json c
  have h10 : get t.json "route" (list? segment?) = some t.route := items_self t.route fun c _ => segment?_json c
  unfold transfer?
  rw [h1, h2, h3, h4, h5, h6, h7, h8, h9, h10]
  rfl

theorem timestep?_json (r : TimestepStats) (e : TimestepEntry) :
    timestep? (timestepJson r e) = some (e, recorded r) := by
  have h1 : get (timestepJson r e) "start_cycle" nat? = some e.startc := nat?_int _
  have h2 : get (timestepJson r e) "end_cycle" nat? = some e.endc := nat?_int _
  have h3 : get (timestepJson r e) "active_transfers" (list? id?) = some e.active :=
    items_self e.active fun c _ => rfl
  have h4 : get (timestepJson r e) "link_demand" (list? demand?) = some e.linkDemand :=
    items_self e.linkDemand fun c _ => demand?_json c
  unfold timestep?
  rw [h1, h2, h3, h4]
  rfl

theorem items_zip (rs : List TimestepStats) (es : List TimestepEntry) :
    items timestep? (List.zipWith timestepJson rs es) = some (List.zipWith (fun r e => (e, recorded r)) rs es) := by
  induction rs generalizing es with
  | nil => rfl
  | cons r rs ih =>
    cases es with
    | nil => rfl
    | cons e es =>
      simp only [List.zipWith_cons_cons]
      unfold items
      rw [timestep?_json, ih]

/-! ### Zones -/

theorem jsons_eq (l : List ZoneNode) : ZoneNode.json.jsons l = l.map ZoneNode.json := by
  induction l with
  | nil => rfl
  | cons x l ih => unfold ZoneNode.json.jsons; rw [ih]; rfl

mutual
theorem zone?_json : ∀ z : ZoneNode, ∃ n0, ∀ n, n0 ≤ n → zone? n z.json = some z
  | .node s done kids => by
    obtain ⟨n0, h⟩ := zones?_json kids
    refine ⟨n0 + 1, fun n hn => ?_⟩
    obtain ⟨m, rfl⟩ : ∃ m, n = m + 1 := ⟨n - 1, by omega⟩
    have hk : items (zone? m) (ZoneNode.json.jsons kids) = some kids := by
      rw [jsons_eq]; exact h m (by omega)
    cases done with
    | none =>
      unfold ZoneNode.json zone?
      have e1 : get (Json.obj [("start", .int s), ("zones", .arr (ZoneNode.json.jsons kids))]) "start" id? = some s := rfl
      have e2 : get (Json.obj [("start", .int s), ("zones", .arr (ZoneNode.json.jsons kids))]) "zones" (list? (zone? m))
          = some kids := hk
      simp only [List.append_nil]
      rw [e1, e2]
      rfl
    | some d =>
      obtain ⟨i, e⟩ := d
      unfold ZoneNode.json zone?
      have e1 : get (Json.obj ([("start", .int s), ("zones", .arr (ZoneNode.json.jsons kids))] ++
        [("id", .str i), ("end", .int e)])) "start" id? = some s := rfl
      have e2 : get (Json.obj ([("start", .int s), ("zones", .arr (ZoneNode.json.jsons kids))] ++
        [("id", .str i), ("end", .int e)])) "zones" (list? (zone? m)) = some kids := hk
      simp only
      rw [e1, e2]
      rfl

theorem zones?_json : ∀ l : List ZoneNode, ∃ n0, ∀ n, n0 ≤ n → items (zone? n) (l.map ZoneNode.json) = some l
  | [] => ⟨0, fun _ _ => rfl⟩
  | x :: l => by
    obtain ⟨a, ha⟩ := zone?_json x
    obtain ⟨b, hb⟩ := zones?_json l
    refine ⟨max a b, fun n hn => ?_⟩
    rw [List.map_cons]
    unfold items
    rw [ha n (by omega), hb n (by omega)]
end

/-! ### Documents -/

theorem figOrNull?_json (d : Dbl) : figOrNull? d.json = some (finite d) := by cases d <;> rfl

theorem runFigures?_json (a b : Dbl) (x : ℚ) :
    runFigures? (nocJson a.json b.json (.double x)) = some ⟨finite a, finite b, x⟩ := by
  have h1 : get (nocJson a.json b.json (.double x)) "avg_link_demand" figOrNull? = some (finite a) := figOrNull?_json a
  have h2 : get (nocJson a.json b.json (.double x)) "avg_link_util" figOrNull? = some (finite b) := figOrNull?_json b
  have h3 : get (nocJson a.json b.json (.double x)) "max_link_demand" fig? = some x := rfl
  unfold runFigures?
  rw [h1, h2, h3]
  rfl

theorem arch_text (dev : Device) : (if dev.arch = .wormholeB0 then "wormhole_b0" else "blackhole") =
    match dev.arch with
    | .wormholeB0 => "wormhole_b0"
    | .blackhole => "blackhole" := by
  cases dev.arch <;> rfl

/-- The fields of the general part, whatever other fields there are after them. -/
theorem info?_fields (cfg : Config) (dev : Device) (s : Summary) (rest : List (String × Json)) :
    ∀ l, commonInfo cfg dev s = .obj l → info? (.obj (l ++ rest)) = some (infoOf cfg dev s) := by
  intro l hl
  obtain rfl := Json.obj.inj hl
  generalize hj : Json.obj _ = j
  have h1 : get j "mesh_device" text? = some cfg.deviceName := by rw [← hj]; rfl
  have h2 : get j "arch" text? = some (infoOf cfg dev s).arch := by
    rw [← hj]; exact congrArg some (arch_text dev)
  have h3 : get j "cycles_per_timestep" id? = some cfg.cyclesPerTimestep := by rw [← hj]; rfl
  have h4 : get j "congestion_model_name" text? = some cfg.congestionModel := by rw [← hj]; rfl
  have h5 : get j "num_rows" nat? = some dev.rows := by rw [← hj]; exact nat?_int _
  have h6 : get j "num_cols" nat? = some dev.cols := by rw [← hj]; exact nat?_int _
  have h7 : get j "dram_bw_util" figOrNull? = some (finite s.dramUtil) := by rw [← hj]; exact figOrNull?_json _
  have h8 : get j "link_util" figOrNull? = some (finite s.avgLinkUtil) := by rw [← hj]; exact figOrNull?_json _
  have h9 : get j "mcast_write_link_util" figOrNull? = some (finite s.avgMcastUtil) := by
    rw [← hj]; exact figOrNull?_json _
  have h10 : get j "link_demand" figOrNull? = some (finite s.avgLinkDemand) := by rw [← hj]; exact figOrNull?_json _
  have h11 : get j "max_link_demand" fig? = some s.maxLinkDemand := by rw [← hj]; rfl
  have h12 : get j "noc" (fun n => get n "NOC0" runFigures?) = some (infoOf cfg dev s).noc0 := by
    rw [← hj]; exact runFigures?_json _ _ _
  have h13 : get j "noc" (fun n => get n "NOC1" runFigures?) = some (infoOf cfg dev s).noc1 := by
    rw [← hj]; exact runFigures?_json _ _ _
  unfold info?
  rw [h1, h2, h3, h4, h5, h6, h7, h8, h9, h10, h11, h12, h13]
  rfl

theorem coreZones?_json {region : Option Region} (zs : List Zone) (core : Coord × RiscType) (roots : List ZoneNode)
    (h : emitZones region zs = .ok roots) :
    ∃ n0, ∀ n, n0 ≤ n → coreZones? n (coreZonesJson zs core roots) = some (core.1, core.2, roots) := by
  obtain ⟨n0, hn⟩ := zones?_json roots
  refine ⟨n0, fun n hle => ?_⟩
  unfold coreZonesJson
  by_cases hz : zs = []
  · subst hz
    obtain rfl : [] = roots := Out.ok.inj h
    obtain ⟨c, p⟩ := core
    cases p <;> rfl
  · rw [if_neg hz]
    unfold coreZones?
    have h1 : get (.obj ([("core", core.1.json), ("proc", .str core.2.name)] ++
      [("zones", .arr (roots.map ZoneNode.json))])) "core" coord? = some core.1 := rfl
    have h2 : get (.obj ([("core", core.1.json), ("proc", .str core.2.name)] ++
      [("zones", .arr (roots.map ZoneNode.json))])) "proc" proc? = some core.2 := by
      cases core.2 <;> rfl
    have h3 : Json.field "zones" (.obj ([("core", core.1.json), ("proc", .str core.2.name)] ++
      [("zones", .arr (roots.map ZoneNode.json))])) = some (.arr (roots.map ZoneNode.json)) := rfl
    rw [h1, h2, h3]
    change (items (zone? n) (roots.map ZoneNode.json)).bind _ = _
    rw [hn n hle]
    rfl

theorem zones_read {region : Option Region} {l : List ((Coord × RiscType) × List Zone)} {zones : List Json}
    (h : Out.mapM (fun (e : (Coord × RiscType) × List Zone) =>
      emitZones region e.2 >>= fun roots => .ok (coreZonesJson e.2 e.1 roots)) l = .ok zones) :
    ∃ rootss, List.Forall₂ (fun e roots => emitZones region e.2 = .ok roots) l rootss ∧
      ∃ n0, ∀ n, n0 ≤ n → items (coreZones? n) zones =
        some (List.zipWith (fun e roots => (e.1.1, e.1.2, roots)) l rootss) := by
  rw [mapM_eq_ok] at h
  induction h with
  | nil => exact ⟨[], .nil, 0, fun _ _ => rfl⟩
  | cons h _ ih =>
    obtain ⟨rs, hrs, a, ha⟩ := ih
    rw [bind_eq_ok] at h
    obtain ⟨roots, hr, h⟩ := h
    obtain ⟨b, hb⟩ := coreZones?_json _ _ roots hr
    refine ⟨roots :: rs, .cons hr hrs, max a b, fun n hn => ?_⟩
    rw [← Out.ok.inj h]
    unfold items
    rw [hb n (by omega), ha n (by omega)]
    rfl

/-- The parts of a document. -/
theorem documentV1_ok {fp : FP} {cfg : Config} {dev : Device} {ord : List (Int × List Int) → List (Int × List Int)}
    {topology : InputFile} {d : RunData} {region : Option Region} {j : Json} {chips : List (String × Json)}
    (hc : chipsSection dev topology = .ok (some chips))
    (h : documentV1 fp cfg dev ord topology d region = .ok j) :
    ∃ tl zones, serializeV1 fp dev ord d.wl d.ts d.stats.steps region = .ok tl ∧ zonesJson d.wl region = .ok zones ∧
      j = .obj [
        ("common_info", commonInfo cfg dev d.summary),
        ("chips", .obj chips),
        ("noc_transfers", .arr (tl.transfers.map LogicalTransfer.json)),
        ("zones", .arr zones),
        ("timestep_data", .arr (List.zipWith timestepJson (d.stats.steps.filter (listedStep region))
          tl.timesteps))] := by
  unfold documentV1 at h
  rw [hc, bind_ok] at h
  simp only at h
  rw [bind_eq_ok] at h
  obtain ⟨tl, htl, h⟩ := h
  rw [bind_eq_ok] at h
  obtain ⟨z, hz, h⟩ := h
  exact ⟨tl, z, htl, hz, (Out.ok.inj h).symm⟩

/-- Reading a document whose general part has further fields. -/
theorem content_read {cfg : Config} {dev : Device} {s : Summary} {chips rest : List (String × Json)} {tl : Timeline}
    {steps : List TimestepStats} {zones : List Json} {cores : List (Coord × RiscType × List ZoneNode)} {n : Nat}
    {ci : List (String × Json)} (hci : commonInfo cfg dev s = .obj ci)
    (hz : items (coreZones? n) zones = some cores) :
    content? n (.obj [
        ("common_info", .obj (ci ++ rest)),
        ("chips", .obj chips),
        ("noc_transfers", .arr (tl.transfers.map LogicalTransfer.json)),
        ("zones", .arr zones),
        ("timestep_data", .arr (List.zipWith timestepJson steps tl.timesteps))]) =
      some ⟨infoOf cfg dev s, tl.transfers, List.zipWith (fun r e => (e, recorded r)) steps tl.timesteps, cores⟩ := by
  generalize hj : Json.obj _ = j
  have h1 : get j "common_info" info? = some (infoOf cfg dev s) := by
    rw [← hj]; exact info?_fields cfg dev s rest ci hci
  have h2 : get j "noc_transfers" (list? transfer?) = some tl.transfers := by
    rw [← hj]; exact items_self _ fun t _ => transfer?_json t
  have h3 : get j "timestep_data" (list? timestep?) =
      some (List.zipWith (fun r e => (e, recorded r)) steps tl.timesteps) := by
    rw [← hj]; exact items_zip _ _
  have h4 : get j "zones" (list? (coreZones? n)) = some cores := by rw [← hj]; exact hz
  unfold content?
  rw [h1, h2, h3, h4]
  rfl

/-- The general part of a split document has one more field. -/
theorem split_fields (i n : Nat) (r : Region) (cfg : Config) (dev : Device) (s : Summary)
    (rest : List (String × Json)) : ∃ ci, commonInfo cfg dev s = .obj ci ∧
    addSplitInfo i n r (.obj (("common_info", commonInfo cfg dev s) :: rest)) =
      .obj (("common_info", .obj (ci ++ [("split_info", splitInfo i n r)])) :: rest) := by
  refine ⟨_, rfl, ?_⟩
  simp [addSplitInfo, Json.put, Json.field, Fabric.setKey, commonInfo]

theorem part_read (i n : Nat) (r : Region) (cfg : Config) (dev : Device) (s : Summary) (rest : List (String × Json)) :
    part? (addSplitInfo i n r (.obj (("common_info", commonInfo cfg dev s) :: rest))) = some ⟨i, n, r⟩ := by
  have h0 : get (addSplitInfo i n r (.obj (("common_info", commonInfo cfg dev s) :: rest))) "common_info"
      (fun c => get c "split_info" some) = some (splitInfo i n r) := by
    obtain ⟨ci, hci, e⟩ := split_fields i n r cfg dev s rest
    obtain rfl := Json.obj.inj hci
    rw [e]
    rfl
  have h1 : get (splitInfo i n r) "split_index" nat? = some i := nat?_int _
  have h2 : get (splitInfo i n r) "total_splits" nat? = some n := nat?_int _
  have h3 : get (splitInfo i n r) "start_timestep_idx" nat? = some r.startIdx := nat?_int _
  have h4 : get (splitInfo i n r) "end_timestep_idx" nat? = some r.endIdx := nat?_int _
  have h5 : get (splitInfo i n r) "start_cycle" nat? = some r.startCycle := nat?_int _
  have h6 : get (splitInfo i n r) "end_cycle" nat? = some r.endCycle := nat?_int _
  unfold part?
  rw [h0, Option.bind_some, h1, h2, h3, h4, h5, h6]
  rfl

/-! ### The legacy format -/

theorem cell?_json {d : Int} {c : Coord} (h : c.dev = d) : cell? d c.jsonV0 = some c := by
  unfold cell? Coord.jsonV0
  simp only
  rw [← h]

theorem legacyTransfer {dev : Device} {d : Int} {t : TState} {j : Json} (h : transferV0 dev t = .ok j)
    (hsrc : t.params.src.dev = d) {s : Segment} (hs : segmentOf dev t = .ok s) (hdst : ∀ c ∈ s.dst, c.dev = d)
    (hlinks : ∀ e ∈ s.links, e.1.dev = d) :
    legacyTransfer? d j = some ((t.params.id, t.params.totalBytes, t.params.eventType), s) := by
  unfold transferV0 at h
  unfold segmentOf at hs
  rw [bind_eq_ok] at h hs
  obtain ⟨dst, hd, h⟩ := h
  obtain ⟨dst', hd', hs⟩ := hs
  rw [hd] at hd'
  obtain rfl := Out.ok.inj hd'
  rw [bind_eq_ok] at h hs
  obtain ⟨attrs, ha, h⟩ := h
  obtain ⟨attrs', ha', hs⟩ := hs
  rw [ha] at ha'
  obtain rfl := Out.ok.inj ha'
  rw [pure_eq] at hs
  rw [← Out.ok.inj h]
  rw [← Out.ok.inj hs] at hdst hlinks ⊢
  have h3 : get (transferJsonV0 t dst attrs) "dst" (list? (cell? d)) = some dst :=
    items_self dst fun c hc => cell?_json (hdst c hc)
  have h4 : get (transferJsonV0 t dst attrs) "route" (list? (legacyLink? d)) =
      some ((t.params.src, HopKind.entry t.params.noc) ::
      (attrs.map fun a => (a.coord, HopKind.link a.type)) ++
      dst.map fun c => (c, HopKind.exit t.params.noc)) := by
    have hj : ((.arr [.int t.params.src.row, .int t.params.src.col, .str (HopKind.entry t.params.noc).name] ::
      (attrs.map fun a => .arr [.int a.coord.row, .int a.coord.col, .str a.type.name]) ++
      dst.map fun c => .arr [.int c.row, .int c.col, .str (HopKind.exit t.params.noc).name]) : List Json) =
      ((t.params.src, HopKind.entry t.params.noc) ::
      (attrs.map fun a => (a.coord, HopKind.link a.type)) ++
      dst.map fun c => (c, HopKind.exit t.params.noc)).map fun e =>
        Json.arr [.int e.1.row, .int e.1.col, .str e.2.name] := by
      rw [List.map_append, List.map_cons, List.map_map, List.map_map]
      rfl
    change items _ _ = _
    rw [hj]
    refine items_self _ fun e he => ?_
    have := hlinks e he
    unfold legacyLink?
    simp only
    rw [hop?_name, ← this]
    rfl
  have h1 : get (transferJsonV0 t dst attrs) "id" id? = some t.params.id := rfl
  have h2 : get (transferJsonV0 t dst attrs) "src" (cell? d) = some t.params.src := cell?_json hsrc
  have h5 : get (transferJsonV0 t dst attrs) "total_bytes" nat? = some t.params.totalBytes := nat?_int _
  have h6 : get (transferJsonV0 t dst attrs) "noc_type" noc? = some t.params.noc := noc?_name _
  have h7 : get (transferJsonV0 t dst attrs) "injection_rate" fig? = some t.params.injectionRate := rfl
  have h8 : get (transferJsonV0 t dst attrs) "start_cycle" nat? = some t.start := nat?_int _
  have h9 : get (transferJsonV0 t dst attrs) "end_cycle" nat? = some t.endc := nat?_int _
  have h10 : get (transferJsonV0 t dst attrs) "noc_event_type" text? = some t.params.eventType := rfl
  unfold legacyTransfer?
  rw [h1, h2, h3, h4, h5, h6, h7, h8, h9, h10]
  rfl

theorem legacyTimestep {fp : FP} {dev : Device} {gs : Groups} {d : Int} {r : TimestepStats} {j : Json} {e : TimestepEntry}
    (h : timestepV0 fp dev r = .ok j) (he : emitTimestep fp dev gs r = .ok e)
    (hd : ∀ x ∈ e.linkDemand, x.1.dev = d) :
    legacyTimestep? d j = some (⟨r.startc, r.endc, (sortBy (fun a b => a ≤ b) r.live).map fun (i : Nat) => (i : Int),
      e.linkDemand⟩, r.avgLinkDemand, r.avgLinkUtil, r.avgMcastUtil) := by
  unfold timestepV0 at h
  unfold emitTimestep at he
  simp only [pure_eq] at he
  rw [bind_eq_ok] at h he
  obtain ⟨n, hn, h⟩ := h
  obtain ⟨n', hn', he⟩ := he
  rw [bind_eq_ok] at h he
  obtain ⟨l, hl, h⟩ := h
  obtain ⟨l', hl', he⟩ := he
  rw [← Out.ok.inj h]
  rw [← Out.ok.inj he] at hd ⊢
  have key : ∀ (g : Nat × ℚ → Out (Coord × HopKind)) (x : List (Nat × ℚ)) (a : List Json)
      (b : List (Coord × HopKind × ℚ)),
      Out.mapM (fun e => g e >>= fun p => .ok (Json.arr [.int p.1.row, .int p.1.col, .str p.2.name, .double e.2])) x = .ok a →
      Out.mapM (fun e => g e >>= fun p => .ok (p.1, p.2, e.2)) x = .ok b →
      (∀ y ∈ b, y.1.dev = d) → items (legacyDemand? d) a = some b := by
    intro g x
    induction x with
    | nil =>
      intro a b ha hb _
      rw [← Out.ok.inj ha, ← Out.ok.inj hb]
      rfl
    | cons e x ih =>
      intro a b ha hb hy
      rw [Out.mapM_cons] at ha hb
      cases hg : g e with
      | ok p =>
        rw [hg, bind_ok, bind_ok, bind_eq_ok] at ha hb
        obtain ⟨a', ha', ha⟩ := ha
        obtain ⟨b', hb', hb⟩ := hb
        rw [← Out.ok.inj ha]
        rw [← Out.ok.inj hb] at hy ⊢
        unfold items
        rw [ih a' b' ha' hb' fun y hm => hy y (by simp [hm])]
        have := hy (p.1, p.2, e.2) (by simp)
        unfold legacyDemand?
        simp only at this ⊢
        rw [hop?_name, ← this]
        rfl
      | _ => rw [hg] at ha; exact absurd ha nofun
  have app : ∀ (a b : List Json) (x y : List (Coord × HopKind × ℚ)), items (legacyDemand? d) a = some x →
      items (legacyDemand? d) b = some y → items (legacyDemand? d) (a ++ b) = some (x ++ y) := by
    intro a b x y ha hb
    induction a generalizing x with
    | nil => rw [← Option.some.inj ha]; exact hb
    | cons c a ih =>
      unfold items at ha
      rw [List.cons_append]
      unfold items
      cases hc : legacyDemand? d c with
      | none => rw [hc] at ha; exact absurd ha nofun
      | some z =>
        cases hr : items (legacyDemand? d) a with
        | none => rw [hc, hr] at ha; exact absurd ha nofun
        | some w =>
          rw [hc, hr] at ha
          rw [← Option.some.inj ha, ih w hr]
          rfl
  have hn2 := key (fun e => dev.getNIUAttributes (toI16 (e.1 : Nat)) >>= fun a => .ok (a.coord, niuHop a.type))
    (significant fp r.niuGrid) n n' (by
      rw [← hn]; refine congrArg (fun f => Out.mapM f _) (funext fun e => ?_)
      cases dev.getNIUAttributes (toI16 (e.1 : Nat)) <;> rfl) (by
      rw [← hn']; refine congrArg (fun f => Out.mapM f _) (funext fun e => ?_)
      cases dev.getNIUAttributes (toI16 (e.1 : Nat)) <;> rfl) fun y hy => hd y (by simp [hy])
  have hl2 := key (fun e => dev.getLinkAttributes (toI16 (e.1 : Nat)) >>= fun a => .ok (a.coord, .link a.type))
    (significant fp r.linkGrid) l l' (by
      rw [← hl]; refine congrArg (fun f => Out.mapM f _) (funext fun e => ?_)
      cases dev.getLinkAttributes (toI16 (e.1 : Nat)) <;> rfl) (by
      rw [← hl']; refine congrArg (fun f => Out.mapM f _) (funext fun e => ?_)
      cases dev.getLinkAttributes (toI16 (e.1 : Nat)) <;> rfl) fun y hy => hd y (by simp [hy])
  have h1 : get (timestepJsonV0 r n l) "start_cycle" nat? = some r.startc := nat?_int _
  have h2 : get (timestepJsonV0 r n l) "end_cycle" nat? = some r.endc := nat?_int _
  have h3 : get (timestepJsonV0 r n l) "active_transfers" (list? id?) =
      some ((sortBy (fun a b => a ≤ b) r.live).map fun (i : Nat) => (i : Int)) := items_map _ fun c _ => rfl
  have h4 : get (timestepJsonV0 r n l) "link_demand" (list? (legacyDemand? d)) = some (n' ++ l') :=
    app n l n' l' hn2 hl2
  unfold legacyTimestep?
  rw [h1, h2, h3, h4]
  rfl

/-! ### Names -/

/-- The extension of timeline files. -/
abbrev ext : List Char := ".npeviz".toList

theorem beforeFirst_split (p : List Char) : ∀ s : List Char, Occurs p s → p ≠ [] →
    ∃ b, s = beforeFirst p s ++ p ++ b := by
  intro s
  induction s with
  | nil =>
    rintro ⟨a, b, h⟩ hp
    have : p = [] := by
      have := congrArg List.length h
      simp at this
      exact List.length_eq_zero_iff.mp (by omega)
    exact absurd this hp
  | cons c s ih =>
    rintro ⟨a, b, h⟩ hp
    unfold beforeFirst
    by_cases hpre : p.isPrefixOf (c :: s)
    · rw [if_pos hpre]
      obtain ⟨t, ht⟩ := List.isPrefixOf_iff_prefix.mp hpre
      exact ⟨t, by simp [ht]⟩
    · rw [if_neg hpre]
      cases a with
      | nil =>
        exfalso
        apply hpre
        rw [List.isPrefixOf_iff_prefix]
        exact ⟨b, by simp [h]⟩
      | cons x a =>
        simp only [List.cons_append, List.cons.injEq] at h
        obtain ⟨b', hb'⟩ := ih ⟨a, b, by simp [h.2]⟩ hp
        exact ⟨b', by simpa using hb'⟩

theorem beforeFirst_absent (p : List Char) : ∀ s : List Char, ¬ Occurs p s → beforeFirst p s = s := by
  intro s
  induction s with
  | nil => intro _; rfl
  | cons c s ih =>
    intro h
    unfold beforeFirst
    rw [if_neg, ih]
    · rintro ⟨a, b, hs⟩
      exact h ⟨c :: a, b, by simp [hs]⟩
    · intro hp
      obtain ⟨t, ht⟩ := List.isPrefixOf_iff_prefix.mp hp
      exact h ⟨[], t, by simp [ht]⟩

/-- The first occurrence is where it was put. -/
theorem beforeFirst_ext : ∀ (P r : List Char), ¬ Occurs ext P → beforeFirst ext (P ++ ext ++ r) = P := by
  intro P
  induction P with
  | nil =>
    intro r _
    have : ∃ c l, (ext ++ r) = c :: l := ⟨'.', "npeviz".toList ++ r, rfl⟩
    obtain ⟨c, l, h⟩ := this
    rw [List.nil_append, h]
    unfold beforeFirst
    rw [if_pos]
    rw [← h, List.isPrefixOf_iff_prefix]
    exact List.prefix_append _ _
  | cons c P ih =>
    intro r h
    rw [List.cons_append, List.cons_append]
    unfold beforeFirst
    rw [if_neg, ih r fun ⟨a, b, hs⟩ => h ⟨c :: a, b, by simp [hs]⟩]
    intro hp
    rw [List.isPrefixOf_iff_prefix, ← List.cons_append, ← List.cons_append] at hp
    obtain ⟨q, hq⟩ := hp
    rw [List.append_assoc, List.append_eq_append_iff] at hq
    rcases hq with ⟨t, ht, h2⟩ | ⟨t, ht, h2⟩
    · exact h ⟨[], t, by simp [ht]⟩
    · -- the extension begins with a proper part of itself
      have hlen : (c :: P).length + t.length = 7 := by
        rw [← List.length_append, ← ht]; rfl
      have ht0 : t ≠ [] := by
        rintro rfl
        exact h ⟨[], [], by rw [List.append_nil] at ht; simp [← ht]⟩
      obtain ⟨y, t', rfl⟩ := List.exists_cons_of_ne_nil ht0
      have hy : y = '.' := by
        have := congrArg List.head? h2
        simpa [ext] using this.symm
      rw [hy] at ht
      match P, ht with
      | [], ht => simp [ext] at ht
      | [_], ht => simp [ext] at ht
      | [_, _], ht => simp [ext] at ht
      | [_, _, _], ht => simp [ext] at ht
      | [_, _, _, _], ht => simp [ext] at ht
      | [_, _, _, _, _], ht => simp [ext] at ht
      | _ :: _ :: _ :: _ :: _ :: _ :: _, _ =>
        simp at hlen
        omega

theorem decimal_injective {a b : Nat} (ha : Spec.Analyze.Denotes (Analyze.decimal a) a)
    (hb : Spec.Analyze.Denotes (Analyze.decimal b) b) (h : Analyze.decimal a = Analyze.decimal b) : a = b := by
  rw [Analyze.denotes_iff] at ha hb
  rw [← ha.2.2, ← hb.2.2, h]

theorem beforeLastDot_ext (s e : List Char) (he : '.' ∉ e) : beforeLastDot (s ++ '.' :: e) = s := by
  unfold beforeLastDot
  rw [if_pos (by simp), List.reverse_append, List.reverse_cons, List.append_assoc, List.dropWhile_append_of_pos]
  · simp
  · intro c hc
    rw [List.mem_reverse] at hc
    simp only [ne_eq, decide_eq_true_eq]
    rintro rfl
    exact he hc

/-! ### The files of a run -/

/-- A split file: its name and its document. -/
def IsSplit (fp : FP) (cfg : Config) (dev : Device) (ord : List (Int × List Int) → List (Int × List Int))
    (tc : TimelineConfig) (d : RunData) (n : Nat) (e : Nat × Region) (f : List Char × Json) : Prop :=
  ∃ j, documentV1 fp cfg dev ord tc.topology d (some e.2) = .ok j ∧
    f = (tc.fileName (tc.splitName e.1), addSplitInfo e.1 n e.2 j)

theorem emitFiles_legacy {fp : FP} {cfg : Config} {dev : Device}
    {ord : List (Int × List Int) → List (Int × List Int)}
    {tc : TimelineConfig} {wl : Workload} {ts : List TState} {rep : Report} {files : List (List Char × Json)}
    (h : emitFiles fp cfg dev ord tc wl ts rep = .ok files) (hl : tc.legacy = true) :
    ∃ r j, rep.lookup MESH_DEVICE = some r ∧ documentV0 fp cfg dev ⟨wl, ts, r.stats, r.summary⟩ = .ok j ∧
      files = [(tc.fileName tc.base, j)] := by
  unfold emitFiles at h
  cases hm : rep.lookup MESH_DEVICE with
  | none => rw [hm] at h; exact absurd h nofun
  | some r =>
    rw [hm] at h
    simp only [hl, if_true] at h
    rw [bind_eq_ok] at h
    obtain ⟨j, hj, h⟩ := h
    exact ⟨r, j, rfl, hj, (Out.ok.inj h).symm⟩

theorem emitFiles_v1 {fp : FP} {cfg : Config} {dev : Device} {ord : List (Int × List Int) → List (Int × List Int)}
    {tc : TimelineConfig} {wl : Workload} {ts : List TState} {rep : Report} {files : List (List Char × Json)}
    (h : emitFiles fp cfg dev ord tc wl ts rep = .ok files) (hl : tc.legacy = false) :
    ∃ r rs j l, rep.lookup MESH_DEVICE = some r ∧
      documentV1 fp cfg dev ord tc.topology ⟨wl, ts, r.stats, r.summary⟩ none = .ok j ∧
      splitRegions r.stats.steps tc.threshold = .ok rs ∧
      List.Forall₂ (IsSplit fp cfg dev ord tc ⟨wl, ts, r.stats, r.summary⟩ rs.length) ((List.range rs.length).zip rs) l ∧
      files = (tc.fileName tc.base, j) :: l := by
  unfold emitFiles at h
  cases hm : rep.lookup MESH_DEVICE with
  | none => rw [hm] at h; exact absurd h nofun
  | some r =>
    rw [hm] at h
    simp only [hl, Bool.false_eq_true, if_false] at h
    rw [bind_eq_ok] at h
    obtain ⟨j, hj, h⟩ := h
    rw [bind_eq_ok] at h
    obtain ⟨l, hl, h⟩ := h
    unfold splitFiles at hl
    rw [bind_eq_ok] at hl
    obtain ⟨rs, hrs, hl⟩ := hl
    rw [mapM_eq_ok] at hl
    refine ⟨r, rs, j, l, rfl, hj, hrs, hl.imp ?_, (Out.ok.inj h).symm⟩
    intro e f hf
    rw [bind_eq_ok] at hf
    obtain ⟨j, hj, hf⟩ := hf
    exact ⟨j, hj, (Out.ok.inj hf).symm⟩

/-! ### Writing succeeds -/

theorem forall₂_left {α β : Type} {R : α → β → Prop} {a : List α} {b : List β} (h : List.Forall₂ R a b) {x : α}
    (hx : x ∈ a) : ∃ y ∈ b, R x y := by
  induction h with
  | nil => exact absurd hx nofun
  | cons h _ ih =>
    rcases List.mem_cons.mp hx with rfl | hx
    · exact ⟨_, by simp, h⟩
    · obtain ⟨y, hy, hr⟩ := ih hx
      exact ⟨y, by simp [hy], hr⟩

theorem timestepV0_total {fp : FP} {dev : Device} {gs : Groups} {r : TimestepStats} {e : TimestepEntry}
    (h : emitTimestep fp dev gs r = .ok e) : ∃ j, timestepV0 fp dev r = .ok j := by
  unfold emitTimestep at h
  simp only [pure_eq] at h
  rw [bind_eq_ok] at h
  obtain ⟨n, hn, h⟩ := h
  rw [bind_eq_ok] at h
  obtain ⟨l, hl, _⟩ := h
  rw [mapM_eq_ok] at hn hl
  unfold timestepV0
  obtain ⟨n', hn'⟩ := Out.mapM_total (f := fun (e : Nat × ℚ) => dev.getNIUAttributes (toI16 (e.1 : Nat)) >>= fun a =>
    .ok (Json.arr [.int a.coord.row, .int a.coord.col, .str (niuHop a.type).name, .double e.2]))
    (l := significant fp r.niuGrid) fun x hx => by
      obtain ⟨y, _, hy⟩ := forall₂_left hn hx
      rw [bind_eq_ok] at hy
      obtain ⟨a, ha, _⟩ := hy
      exact ⟨_, by rw [ha, bind_ok]⟩
  obtain ⟨l', hl'⟩ := Out.mapM_total (f := fun (e : Nat × ℚ) => dev.getLinkAttributes (toI16 (e.1 : Nat)) >>= fun a =>
    .ok (Json.arr [.int a.coord.row, .int a.coord.col, .str a.type.name, .double e.2]))
    (l := significant fp r.linkGrid) fun x hx => by
      obtain ⟨y, _, hy⟩ := forall₂_left hl hx
      rw [bind_eq_ok] at hy
      obtain ⟨a, ha, _⟩ := hy
      exact ⟨_, by rw [ha, bind_ok]⟩
  exact ⟨_, by rw [hn', bind_ok, hl', bind_ok]⟩

theorem transferV0_total {dev : Device} {t : TState} (h : Writable dev t) : ∃ j, transferV0 dev t = .ok j := by
  obtain ⟨⟨l, hl⟩, as, has⟩ := h
  unfold transferV0
  rw [hl, bind_ok, has, bind_ok]
  exact ⟨_, rfl⟩

theorem report_lookup {dev : Device} {wl : Workload} {d : Int} {ds : DevStats} : ∀ {st : Stats} {rep : Report},
    st.report dev wl = .ok rep → st.lookup d = some ds → ∃ r, rep.lookup d = some r ∧ r.stats = ds := by
  intro st rep h
  unfold Stats.report at h
  rw [mapM_eq_ok] at h
  induction h with
  | nil => intro hl; exact absurd hl nofun
  | @cons e r l l' h _ ih =>
    intro hl
    rw [bind_eq_ok] at h
    obtain ⟨s, _, h⟩ := h
    rw [← Out.ok.inj h]
    rw [List.lookup_cons] at hl ⊢
    cases hd : d == e.1 with
    | true =>
      rw [hd] at hl
      simp only at hl ⊢
      exact ⟨_, rfl, Option.some.inj hl⟩
    | false =>
      rw [hd] at hl
      exact ih hl

theorem zonesJson_total {wl : Workload} (h : ZonesOk wl) (region : Option Region) :
    ∃ z, zonesJson wl region = .ok z := by
  refine Out.mapM_total fun e he => ?_
  obtain ⟨f, hc, hf⟩ := h e he
  obtain ⟨d, h, _⟩ := emit_forest (zs := f.events) (region := region) f [] [] {}
    ⟨rfl, rfl, fun a x b e => by simp at e⟩ hc (by simp) ⟨[], by simp [ZoneIter.init]⟩
  rw [hf]
  unfold emitZones
  rw [h, bind_ok]
  exact ⟨_, rfl⟩

end NPE
