import Verif.Model.LveMain
import Verif.Spec.Lve

/-! # Specification vocabulary for the command line of the vendor executable -/

namespace Semla.Spec

open Semla

/-- The arguments ask for a license checkout, in either order of the two options. -/
def AsksCheckout (args : List Bytes) (feature libpath : Bytes) : Prop :=
  args = [b!"--checkout-feature", feature, b!"--libpath", libpath] ∨
  args = [b!"--libpath", libpath, b!"--checkout-feature", feature]

/-- An option at the end of the arguments lacks its value. -/
def LacksValue (args : List Bytes) : Prop :=
  args = [b!"--checkout-feature"] ∨ args = [b!"--libpath"] ∨
  (∃ f, args = [b!"--checkout-feature", f, b!"--libpath"]) ∨
  ∃ p, args = [b!"--libpath", p, b!"--checkout-feature"]

/-- A manager for the library below `root` can be created. -/
def CanStart (conf : LveConf) (root : Bytes) : Prop :=
  conf.licenseManager [.new (some root)] = .success

/-- A manager for the library below `root` can be created and grants the feature. -/
def Grants (conf : LveConf) (root feature : Bytes) : Prop :=
  CanStart conf root ∧ conf.licenseManager [.new (some root), .checkout feature] = .success

end Semla.Spec
