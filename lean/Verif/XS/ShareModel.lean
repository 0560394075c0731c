import Verif.XS.RegionModel
import Verif.XS.ExpandModel
import Verif.XS.HomogModel

/-!
# Cross-section meshes that share their tables

Model of the storage of `XSMeshHomogenized` objects that are copies of each other.  The regions of a mesh point into the arrays `xstr_`, `xsnf_`,
`xsch_`, `xsf_` and `xsrm_` of the mesh that was constructed first (src/core/xs_mesh_homogenized.cpp:61-63); a copy of the mesh
(src/core/xs_mesh_homogenized.cpp:138-141, the implicit copy constructor) copies these pointers, so that both meshes read and write the same
arrays.  The scattering matrix of each region, the counter `state_` and the pointer to the flux are copied by value.  The copy is made by `CMFD`
(src/core/cmfd.cpp:70) of the mesh of the transport sweeper (src/solvers/eigen_solver.cpp:116-117).
-/

namespace Verif.XS.Share

open Verif.Scatter

variable {K : Type} [Field K] [LinearOrder K] {Φ : Type}

/-- xs_mesh.hpp:151-155: the arrays, by region and group. -/
structure Table (K : Type) where
  tr : Nat → Nat → K
  nf : Nat → Nat → K
  ch : Nat → Nat → K
  f : Nat → Nat → K
  rm : Nat → Nat → K

/-- What a mesh has for itself: the scattering matrices of its regions (xs_mesh_region.hpp:237), `state_` (xs_mesh.hpp:165) and whether `flux_` is set
(xs_mesh_homogenized.hpp:99). -/
structure View (K : Type) where
  scat : Nat → Matrix K
  state : Int
  hasFlux : Bool

/-- xs_mesh_region.hpp:40-101: region `i` as it is read through a mesh.  `is_fissile_` stays false in these meshes (C94). -/
def region (t : Table K) (v : View K) (i : Nat) : Region.Region K :=
  { fissile := false, tr := t.tr i, nf := t.nf i, f := t.f i, ch := t.ch i, rm := t.rm i, sc := v.scat i }

/-- Writing a region back through its pointers and into its own matrix. -/
def store (s : Table K × View K) (i : Nat) (r : Region.Region K) : Table K × View K :=
  ({ tr := Function.update s.1.tr i r.tr, nf := Function.update s.1.nf i r.nf, ch := Function.update s.1.ch i r.ch,
     f := Function.update s.1.f i r.f, rm := Function.update s.1.rm i r.rm },
   { s.2 with scat := Function.update s.2.scat i r.sc })

/-- xs_mesh_homogenized.cpp:257-259, 360-362: `xsr.update` of region `i` with homogenised data. -/
def put (ng : Nat) (s : Table K × View K) (i : Nat) (h : Homog K) : Table K × View K :=
  store s i (Region.update (region s.1 s.2 i) h.tr h.nf h.ch h.f (build ng h.scat))

/-- xs_mesh_homogenized.cpp:186-194 and 73-80: the loop over the regions of all pins. -/
def putAll (ng n : Nat) (data : Nat → Homog K) (s : Table K × View K) : Table K × View K :=
  (List.range n).foldl (fun s i => put ng s i (data i)) s

/-- xs_mesh_homogenized.cpp:176-197 `update`; `data` are the results of `homogenize_region_flux` with the present flux. -/
def update (ng n : Nat) (data : Nat → Homog K) (t : Table K) (v : View K) : Table K × View K :=
  if v.hasFlux then
    let s := putAll ng n data (t, v)
    (s.1, { s.2 with state := s.2.state + 1 })
  else (t, v)

/-- The mesh of the Sn sweeper, the copy of CMFD, and the expanded cross sections that the Sn sweeper shares with the MoC sweeper
(plane_sweeper_2d3d.cpp:88-89).  `flux` is the flux that both `flux_` point to. -/
structure Sys (K Φ : Type) where
  tab : Table K
  sn : View K
  cm : View K
  e : Expanded K
  flux : Φ

/-- plane_sweeper_2d3d.cpp:86-95 and cmfd.cpp:70: volume-weighted data are put into the new mesh, the flux is set (if at all), and the mesh is
copied.  `junk` is what the new arrays hold.  `snFlux` and `cmFlux` tell whether the flux had been set in the mesh and in the copy. -/
def start (ng n : Nat) (data : Nat → Homog K) (junk : Table K) (a : Nat → K) (snFlux cmFlux : Bool) (φ : Φ) : Sys K Φ :=
  let s := putAll ng n data (junk, { scat := fun _ => ⟨0, [], fun _ => 0, []⟩, state := 0, hasFlux := false })
  { tab := s.1, sn := { s.2 with hasFlux := snFlux }, cm := { s.2 with hasFlux := cmFlux }, e := ⟨a, -1, -1⟩, flux := φ }

/-- What happens in a calculation: the flux changes, one of the meshes is updated, the cross sections of a group are expanded. -/
inductive Op (Φ : Type)
  | flux (φ : Φ)
  | sn
  | cmfd
  | expand (g : Nat)

/-- The regions of the mesh with their cells, as `ExpandedXS` sees them. -/
def trMesh (n : Nat) (cells : Nat → List Nat) (t : Table K) (v : View K) : TrMesh K :=
  { regions := (List.range n).map fun i => { tr := t.tr i, regs := cells i }, state := v.state }

/-- One of these steps.  `hom` is `homogenize_region_flux` by flux and region, `cells` the cells of each region. -/
def step (ng n : Nat) (hom : Φ → Nat → Homog K) (cells : Nat → List Nat) (s : Sys K Φ) : Op Φ → Sys K Φ
  | .flux φ => { s with flux := φ }
  | .sn => let r := update ng n (hom s.flux) s.tab s.sn
           { s with tab := r.1, sn := r.2 }
  | .cmfd => let r := update ng n (hom s.flux) s.tab s.cm
             { s with tab := r.1, cm := r.2 }
  | .expand g => { s with e := (World.expand ⟨trMesh n cells s.tab s.sn, s.e⟩ g).e }

def run (ng n : Nat) (hom : Φ → Nat → Homog K) (cells : Nat → List Nat) (s : Sys K Φ) (h : List (Op Φ)) : Sys K Φ :=
  h.foldl (step ng n hom cells) s

/-- sn_sweeper_variant.hpp:99-111: the beginning of an Sn sweep of group `g`. -/
def snSweep (g : Nat) : List (Op Φ) := [.sn, .expand g]

/-- moc_sweeper_2d3d.cpp:70-90 and correction_worker.cpp:66: the MoC sweep of group `g`; `φ` is the flux before the last inner iteration, `ψ` that after
it. -/
def mocSweep (g : Nat) (φ ψ : Φ) : List (Op Φ) := [.flux φ, .sn, .expand g, .flux ψ]

/-- plane_sweeper_2d3d.cpp:105-172: what a sweep of group `g` of the 2D3D sweeper does to cross sections before the last Sn sweep reads them.  `v` is
the flux after the Sn sweep of a V cycle, if that is enabled; `moc` are the fluxes of the MoC sweep, if there is one. -/
def sweepGroup (g : Nat) (v : Option Φ) (moc : Option (Φ × Φ)) : List (Op Φ) :=
  (match v with | some φ => snSweep g ++ [.flux φ] | none => []) ++
  (match moc with | some (φ, ψ) => mocSweep g φ ψ | none => []) ++ snSweep g

/-- eigen_solver.cpp:266-291 `do_cmfd`: CMFD updates its copy (cmfd.cpp:187) and its flux is given to the sweeper. -/
def doCmfd (φ : Φ) : List (Op Φ) := [.cmfd, .flux φ]

end Verif.XS.Share
