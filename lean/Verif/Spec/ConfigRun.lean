import Verif.Model.ConfigRun
import Verif.Spec.Config

/-! # Add-ons that may be loaded -/
namespace Verif.Spec.Config
open Verif.Ident Verif.ConfigRun

/-- The step does not begin to load an add-on that is not compatible. -/
def Fair (w : World) : Step → Prop
  | .load t add => w.threads t = .idle → w.lock = none → Compatible w.config add
  | _ => True

/-- Each add-on is compatible with the configuration when its loading begins. -/
def AllFair (c : Config) (l : List Step) : Prop := ∀ a x b, l = a ++ x :: b → Fair (run c a) x

end Verif.Spec.Config
