import Verif.Proofs.ReadFile
import Verif.Props.Layout
/-!
# C68: a route file is read in linear time
-/

namespace Wayfinder

variable (cfg : ParseCfg)

/-- **C68.** The parser that counts its steps (`Spec/ParseCost`) returns what `route_config` returns, and whatever the text, accepted
or not, it takes at most 120 steps for every character and 200 more. -/
theorem C68_linear (text : Str) :
    (tRouteConfig cfg).run text = routeConfig cfg text ∧ (tRouteConfig cfg).cost text ≤ 120 * text.length + 200 :=
  ⟨by rw [tRouteConfig_run], config_within cfg text⟩

/-- **C68, the parser for blocks.** The same for `routes`, whatever the level. -/
theorem C68_routes (level : Nat) (text : Str) :
    (tRoutes cfg level).run text = pRoutes cfg level text ∧
      (tRoutes cfg level).cost text ≤ 100 * text.length + (16 * level + 140) := by
  refine ⟨by rw [tRoutes_run], ?_⟩
  have := routes_bound cfg (nested_turns cfg (text.length + 1) level)
    (fun j h => nested_refuses cfg (text.length + 1) level (.inr h)) text
  show (tRoutesWith cfg (tNestedRoutes cfg (text.length + 1) level) level).cost text ≤ _
  unfold BlockBound at this
  split at this
  · rcases this with this | ⟨this, _⟩ <;> omega
  · exact this.elim
  · omega

/-- **C68, from below.** Every character of an accepted text costs a step at least. -/
theorem C68_reads {text rest : Str} {c : RouteConfig} (h : routeConfig cfg text = .ok rest c) :
    text.length ≤ (tRouteConfig cfg).cost text := by
  rw [← tRouteConfig_run] at h
  have h1 := pays_config cfg _ _ _ h
  rw [config_whole cfg h] at h1
  simpa using h1

/-- The file of the README has 310 characters. -/
example : Shipped.readmeText.length = 310 ∧ (tRouteConfig (asciiOnly false)).cost Shipped.readmeText = 1259 := by decide +kernel

/-- A rejected text: a deep line behind a resource. -/
example : (tRouteConfig (asciiOnly true)).cost c!"/\n  GET A\n      a\n" = 122 ∧
    (∃ e, routeConfig (asciiOnly true) c!"/\n  GET A\n      a\n" = .error e) :=
  ⟨by decide +kernel, _, rfl⟩

end Wayfinder
