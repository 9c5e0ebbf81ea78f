import Verif.Model.OneCycle
import Verif.Model.WarmupTune
import Verif.Model.Monitor

/-
Callbacks that were used in an earlier fit.
-/
namespace Tomopt

noncomputable section

namespace OneCycle

/-- opt_callbacks.py 46-52 with warmup_callbacks.py 198-204: `on_train_begin` of a schedule used before. What `_activate` and `on_epoch_end` of the earlier fit set (`warming_up`, `n_epochs_expected`, `scale`) stays. -/
def trainAgain (c : Cfg) (old : St) : St := { old with active := false, iter := 0, lr := c.init }

end OneCycle

namespace Warmup

/-- the same warm-up callbacks as they are when new; `warmup_active` first exists after `_reset`, which sets it for all of them before anything reads it (75-83) -/
def newWu (ws : List Wu) : List Wu := ws.map fun c => ⟨c.n, 0, false⟩

/-- the same callbacks as they are when new; `active` first exists after `on_train_begin` (198-204) -/
def newCb : Cb → Cb
  | .post _ => .post false
  | c => c

end Warmup

end

end Tomopt
