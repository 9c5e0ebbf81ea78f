import Verif.Model.Passives

/- Model of tomopt/volume/volume.py 153-167 and layer.py 126-134: loading configurations into a volume, one after the other, some of which may fail on the way. -/
namespace Tomopt

noncomputable section

open Passives

namespace Load

/-- a volume with the target of the configuration in it (volume.py 62 `_target`); targets are tensors, here of any type -/
structure St (τ : Type) where
  volume : Volume
  target : Option τ

/-- volume.py 166-167 with layer.py 134: the layers are loaded in turn, until one raises; those before it keep what they were given -/
def loop (f : Layout) : List AnyLayer → List AnyLayer × Except Err Unit
  | [] => ([], .ok ())
  | .detector D :: ls => (.detector D :: (loop f ls).1, (loop f ls).2)
  | .passive L :: ls =>
    match f L.z L.lw L.size with
    | .error e => (.passive L :: ls, .error e)
    | .ok x => (.passive { L with radLength := some x } :: (loop f ls).1, (loop f ls).2)

/-- volume.py 153-167 `load_rad_length`: the target is set first (165) -/
def load {τ : Type} (s : St τ) (f : Layout) (t : Option τ) : St τ × Except Err Unit :=
  (⟨{ s.volume with layers := (loop f s.volume.layers).1 }, t⟩, (loop f s.volume.layers).2)

end Load

end

end Tomopt
