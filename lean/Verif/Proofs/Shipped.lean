import Verif.Data.Kuka
import Verif.Data.Fetch
import Verif.Data.Pr2
import Verif.Proofs.ReadTable

/-!
# The files in `data/` are checked

By evaluation in the kernel.
-/

set_option maxRecDepth 100000

namespace Tinyfk

theorem kuka_checked : Chk.checkRobot 300 Kuka.text Kuka.order Kuka.root Kuka.links Kuka.joints = true := by decide +kernel
theorem fetch_checked : Chk.checkRobot 1000 Fetch.text Fetch.order Fetch.root Fetch.links Fetch.joints = true := by decide +kernel
theorem pr2_checked : Chk.checkRobot 1000 Pr2.text Pr2.order Pr2.root Pr2.links Pr2.joints = true := by decide +kernel

end Tinyfk
