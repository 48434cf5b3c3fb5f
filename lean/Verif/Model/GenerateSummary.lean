import Verif.Model.Generate
import Verif.Model.Document

/-
The figures that scripts/generate_multichip_data.py gives for each NoC and for the whole run (citations relative to
/repo/tt_npe).

Simplifications: as in Model/Generate.lean, sums and quotients are exact; `round(x, 2)` is a parameter. The branch for
links of an unknown NoC only prints a message and cannot be reached (the names of all links begin with a NoC).
-/

namespace NPE.Generate

/-- `num_links_per_noc`, scripts/generate_multichip_data.py:425. -/
def numLinksPerNoc (rows cols : Nat) : ℚ := rows * cols * 4

/-- `link_key[3].startswith("NOC0")` or `"NOC1"`, scripts/generate_multichip_data.py:469 and 472. -/
def typeOnNoc (noc : Noc) (ty : LinkType) : Bool :=
  (match noc with
    | .noc0 => "NOC0"
    | .noc1 => "NOC1").toList.isPrefixOf ty.name.toList

/-- The test of a link, scripts/generate_multichip_data.py:469 and 472. -/
def onNoc (noc : Noc) (l : LinkAttr) : Bool := typeOnNoc noc l.type

/-- `pct_demand`, scripts/generate_multichip_data.py:468. -/
def pctDemand (q : ℚ) : ℚ := 100 / maxLinkBw * q

/-- `noc_0_link_demand` and `noc_1_link_demand`, scripts/generate_multichip_data.py:463-475. -/
def nocDemandSum (noc : Noc) (d : List (LinkAttr × ℚ)) : ℚ :=
  d.foldl (fun a e => if onNoc noc e.1 then a + pctDemand e.2 else a) 0

/-- `noc_0_link_util` and `noc_1_link_util`, scripts/generate_multichip_data.py:463-475. -/
def nocUtilSum (noc : Noc) (d : List (LinkAttr × ℚ)) : ℚ :=
  d.foldl (fun a e => if onNoc noc e.1 then a + min 100 (pctDemand e.2) else a) 0

/-- Demand and utilization. -/
structure Pair where
  demand : ℚ
  util : ℚ
  deriving DecidableEq

/-- The figures of an entry of `timestep_data`, scripts/generate_multichip_data.py:485-504. -/
structure Figures where
  all : Pair
  noc0 : Pair
  noc1 : Pair
  deriving DecidableEq

/-- The figures of timestep `t`, scripts/generate_multichip_data.py:441-454 and 463-504. -/
def figures (rnd : ℚ → ℚ) (rows cols : Nat) (c t : Int) (ts : List Transfer) : Figures :=
  let d := linkDemand c t ts
  { all := ⟨rnd (avgDemand rows cols c t ts), rnd (avgUtil rows cols c t ts)⟩
    noc0 := ⟨rnd (nocDemandSum .noc0 d / numLinksPerNoc rows cols), rnd (nocUtilSum .noc0 d / numLinksPerNoc rows cols)⟩
    noc1 := ⟨rnd (nocDemandSum .noc1 d / numLinksPerNoc rows cols), rnd (nocUtilSum .noc1 d / numLinksPerNoc rows cols)⟩ }

/-- The figures of all timesteps, scripts/generate_multichip_data.py:431-504. -/
def timestepData (rnd : ℚ → ℚ) (rows cols : Nat) (c : Int) (x : Transfer) (xs : List Transfer) : List Figures :=
  (List.range (numTimesteps c x xs).toNat).map fun (t : Nat) => figures rnd rows cols c t (x :: xs)

/-- The figures of `common_info`, scripts/generate_multichip_data.py:552-567. -/
structure CommonInfo where
  linkDemand : ℚ
  linkUtil : ℚ
  maxLinkDemand : ℚ
  noc0 : Pair
  noc0Max : ℚ
  noc1 : Pair
  noc1Max : ℚ
  deriving DecidableEq

/-- `overall_... += t[...]` and the division by `len(timestep_data)`, scripts/generate_multichip_data.py:507-543. -/
def overallAvg (rnd : ℚ → ℚ) (f : Figures → ℚ) (l : List Figures) : ℚ :=
  rnd (l.foldl (fun a t => a + f t) 0 / l.length)

/-- `max(..., t[...])`, scripts/generate_multichip_data.py:513-529. -/
def overallMax (f : Figures → ℚ) (l : List Figures) : ℚ := l.foldl (fun a t => max a (f t)) 0

/-- The figures of `common_info`, scripts/generate_multichip_data.py:506-567. -/
def summaryInfo (rnd : ℚ → ℚ) (l : List Figures) : CommonInfo :=
  { linkDemand := overallAvg rnd (·.all.demand) l
    linkUtil := overallAvg rnd (·.all.util) l
    maxLinkDemand := overallMax (·.all.demand) l
    noc0 := ⟨overallAvg rnd (·.noc0.demand) l, overallAvg rnd (·.noc0.util) l⟩
    noc0Max := rnd (overallMax (·.noc0.demand) l)
    noc1 := ⟨overallAvg rnd (·.noc1.demand) l, overallAvg rnd (·.noc1.util) l⟩
    noc1Max := rnd (overallMax (·.noc1.demand) l) }

end NPE.Generate
