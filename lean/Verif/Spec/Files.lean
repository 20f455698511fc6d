import Verif.Model.Configuration
/-! # A concrete environment for examples -/

namespace Chanoma

/-- An environment with the given files (used only in examples). -/
def World.ofFiles (files : List (OsStr × Entry)) (yaml : List UInt8 → Option YValue := fun _ => none)
    (chanomarc : Option OsStr := none) : World where
  chanomarc := chanomarc
  home := some (p! "/home/u")
  cwd := some (p! "/work")
  entry p := (files.find? fun e => e.1 = p).map Prod.snd
  canonicalize p := if (files.find? fun e => e.1 = p).isSome then some p else none
  parseYaml := yaml

end Chanoma
