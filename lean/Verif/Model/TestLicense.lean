import Verif.Model.Lve
import Verif.Model.Error

/-!
# The license manager that comes with SEMLA

Models `src/license_managers/testingdummy/src/mlle_license_manager.c`, the license manager an executable is built
with when no other is given.
-/

namespace Semla

/-- `mlle_license_new`, mlle_license_manager.c:36-41: the one static manager. -/
def testLicenseNew : LicAnswer := .success

/-- `mlle_license_checkout_feature`, mlle_license_manager.c:49-61.  `strcmp` stops at the first NUL.  The caller looks
at the message of the error object only. -/
def testLicenseCheckout (mallocOk : Nat → Bool) (feature : Bytes) : LicAnswer :=
  if cstr feature = b!"test_licensed_feature" then .success
  else .failure ((errorNew mallocOk 1 3 b!"Feature not licensed").bind (·.message))

/-- `mlle_license_checkin_feature`, mlle_license_manager.c:63-70. -/
def testLicenseCheckin : LicAnswer := .success

/-- The manager as `LveConf` has it: the answer to the last of the calls made so far. -/
def testManager (mallocOk : Nat → Bool) (calls : List LicCall) : LicAnswer :=
  match calls.getLast? with
  | none => .success
  | some (.new _) => testLicenseNew
  | some (.checkout f) => testLicenseCheckout mallocOk f
  | some (.checkin _) => testLicenseCheckin

end Semla
