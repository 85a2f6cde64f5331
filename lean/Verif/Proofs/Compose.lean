import Verif.Proofs.Total
import Verif.Proofs.Follow
import Verif.Proofs.Naming
/-!
# Configurations inside configurations
-/

namespace Wayfinder

variable {W : World}

/-- Every block reached inside a supported configuration is a supported configuration. -/
theorem Supported.child {r node : Routes} {body : List Stmt} (h : Supported r body)
    {segs : List PathSegment} {above : List Param} (hl : LiveRoute r segs above node) :
    ∃ body', Supported node body' := by
  have hd : DistinctSiblings node := fun s q n hn => h.distinct _ _ n (hl.hasRoute.trans hn)
  obtain ⟨body', hb'⟩ := matcherBody_total hd
  obtain ⟨h1, h2, h3, h4⟩ := h.conditions
  refine ⟨body', hb', (matcherBody_compiles hb').2 ⟨?_, ?_, ?_, h4.child hl⟩, h.hygienic.child hl⟩
  · exact fun s q n hn => h1 _ _ n (hl.trans hn)
  · intro s q n hn res hres
    have := h2 _ _ n (hl.trans hn) res hres
    rw [routeParams_append] at this
    refine List.Nodup.sublist (List.Sublist.map _ ?_) this
    refine List.Sublist.append (List.Sublist.append (List.Sublist.append ?_ ?_) (List.Sublist.refl _))
      (List.Sublist.refl _)
    · exact List.sublist_append_right _ _
    · exact List.sublist_append_right _ _
  · intro s p q n hn
    exact h3 (segs ++ s) p _ n (by rw [List.append_assoc]; exact hl.trans hn)

/-- Following composes. -/
theorem Follows.trans {r node node' : Routes} {segs segs' : List PathSegment} {q q' : List Param}
    {caps caps' : Caps W} {parts parts' : List Bytes}
    (h : Follows W r segs q caps parts node) (h' : Follows W node segs' q' caps' parts' node') :
    Follows W r (segs ++ segs') (q ++ q') (caps ++ caps') (parts ++ parts') node' := by
  induction h with
  | here => exact h'
  | static hn hp _ ih => rw [List.append_assoc]; exact .static hn hp (ih h')
  | dynamic hn hc h1 h2 h3 h4 h5 _ ih => rw [List.append_assoc]; exact .dynamic hn hc h1 h2 h3 h4 h5 (ih h')

end Wayfinder
