import Verif.Model.Launch
import Verif.Model.Dimacs

/-! # What the `dimacs` build prints, from the command line on -/

namespace Verif
namespace Program

/-- What the `dimacs` build prints, from the start: `yml` is the mapping in `config.yml`, `text` the contents of the
instance file. Models `/repo/src/main.rs:10-52`. -/
def launchOutput {α : Type} [F64 α] (lib : Lib α) (yml : Mapping (Yaml α)) (cl : CommandLine) (text : List Char)
    (ω : Oracle) (chs : List (GAChoice α)) (dchs : List (DGAChoice α)) : Option (List (List Char)) :=
  (configure yml cl).bind fun cfg => output lib cfg text ω chs dchs

end Program
end Verif
