import Verif.Model.TimeEvolution
import Verif.Model.Compton

/-
The ready-made energy-change functions of the time evolution, agnpy/time_evolution/time_evolution.py:17-39.

The functions receive `args.gamma` (the interlaced array of bin edges) and return one rate in erg/s per entry.  They
close over a `Synchrotron`/`SynchrotronSelfCompton` object, whose blob's distribution is replaced at every step of the
evolution: `blob d` is that blob while its distribution is `d`.  Only `n_e` changes during a run.
-/

namespace Verif.TE

open Verif.Region

/-- `synchrotron_loss`, time_evolution.py:17-21; the rate depends on the magnetic field only -/
noncomputable def synchrotronLoss (k : Consts) (B : ℝ) : GammaFn ℝ :=
  fun _ args => args.gamma.map fun g => Synchrotron.energyLossRate k B g * -1

/-- `ssc_loss`, time_evolution.py:23-27 -/
noncomputable def sscLoss (k : Consts) (blob : Dist ℝ → Blob) : GammaFn ℝ :=
  fun d args => args.gamma.map fun g => Compton.energyLossRate k (blob d) g * -1

/-- `ssc_thomson_limit_loss`, time_evolution.py:29-33 -/
noncomputable def sscThomsonLoss (k : Consts) (blob : Dist ℝ → Blob) : GammaFn ℝ :=
  fun d args => args.gamma.map fun g => Compton.energyLossRateThomson k (blob d) g * -1

/-- `fermi_acceleration`, time_evolution.py:35-39 with `to_erg`, _time_evolution_utils.py:116-117 -/
noncomputable def fermiAcceleration (k : Consts) (t_acc : ℝ) : GammaFn ℝ :=
  fun _ args => args.gamma.map fun g => g * k.mec2 / t_acc

end Verif.TE
