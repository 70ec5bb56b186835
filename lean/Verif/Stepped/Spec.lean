import Verif.Stepped.Model

/-! # What sensors should be told -/

namespace Verif.Stepped

/-- What a sensor was told about an object, in order: `true` for entered. -/
def said (log : List Told) (s a : Obj) : List Bool := (log.filter fun n => n.sensor = s ∧ n.object = a).map (·.entered)

/-- Entered, exited, entered, … -/
def Alternates : Bool → List Bool → Prop
  | _, [] => True
  | b, x :: l => x = b ∧ Alternates (!b) l

/-- The sensor's last notification was "entered". -/
def Aware (log : List Told) (s a : Obj) : Prop := (said log s a).getLast? = some true

end Verif.Stepped
