import Verif.Weights.HeurProps
import Verif.Graph.CompsProps

/-!
# The heuristic with the speed of the component (property C58 with C34)
-/

set_option linter.unusedSectionVars false

namespace Verif.Weights
open Verif.Graph
variable {E N L : Type} [DecidableEq E] [DecidableEq N]

/-- C58 for the speed that the router uses: `getComp().maxSpeed` of the start of the first edge
(Router.tpp:342). The path may use edges that were added after the labelling as reverse copies
(OsmBuilder.cpp:1743-1752): each of its edges joins adjacent nodes of the labelled graph and has
the level of an edge there. -/
theorem C58_component {P : Type} (env : Env E N L) (o : Opts) (ok : o.OK) (D : Dist P) (B : Built env o D)
    (g : Gr N E) (wf : g.WF) (fuel : Nat) (hf : rounds g ≤ fuel) (center : P) (tos : List E)
    (path : List E) (a t : E) (hp : IsPath env path) (ha : path.head? = some a)
    (ht : path.getLast? = some t) (hto : t ∈ tos)
    (hpath : ∀ e ∈ path, env.src e ∈ g.nds ∧ Adj g (env.src e) (env.dst e) ∧
      ∃ e0, Inc g (env.src e) e0 ∧ g.speed e0 = B.speed e / corFac o) :
    ∃ s num V, writeComps g fuel = some (s, num) ∧ getComp s (env.src a) = some V ∧
      (heur (heurOf env D B.pos center V tos) a).toNat ≤ pathCost env path := by
  obtain ⟨s, num, h1, _, h3, h4, _⟩ := C34_components g wf fuel hf
  have haIn : a ∈ path := List.mem_of_mem_head? ha
  obtain ⟨V, hV, _⟩ := h4 _ (hpath a haIn).1
  have hsame : ∀ (l : List E), IsPath env l → (∀ e ∈ l, e ∈ path) → ∀ b, l.head? = some b →
      ∀ e ∈ l, Conn g (env.src b) (env.src e) := by
    intro l
    induction l with
    | nil => intro _ _ b hb; cases hb
    | cons x l ih =>
      intro hl hin b hb e he
      cases hb
      rcases List.mem_cons.mp he with rfl | he
      · exact .refl _
      · cases l with
        | nil => cases he
        | cons y l =>
          have := ih hl.2 (fun z hz => hin z (by simp [hz])) y rfl e he
          refine Conn.trans (.step (.refl _) ?_) this
          rw [← hl.1]
          exact (hpath x (hin x (by simp))).2.1
  have hb : ∀ e ∈ path, B.speed e / corFac o ≤ V := by
    intro e he
    have hc := hsame path hp (fun _ h => h) a ha e he
    obtain ⟨he1, _, e0, he2, he3⟩ := hpath e he
    obtain ⟨v, hv, hb, _⟩ := h4 _ he1
    have : getComp s (env.src e) = getComp s (env.src a) := by
      unfold getComp
      rw [(h3 _ (hpath a haIn).1 _ he1).mpr hc]
    rw [this, hV] at hv
    cases hv
    rw [← he3]
    exact hb e0 he2
  have hfac : 0 < corFac o := by
    rw [corFac_eq]
    exact Rat.mul_pos (Rat.mul_pos (Rat.mul_pos (Rat.mul_pos (cap_pos ok.name) (cap_pos ok.fr)) (cap_pos ok.to))
      (cap_pos ok.noLines)) (cap_pos ok.oneWayPen)
  have hsp : 0 < B.speed a / corFac o := by
    rw [div_eq]; exact Rat.mul_pos (B.speed0 a) (inv_pos hfac)
  have V0 : 0 < V := by have := hb a haIn; grind
  exact ⟨s, num, V, h1, hV, C58_admissible env o ok D B center V V0 tos path a t hp ha ht hto hb⟩

end Verif.Weights
