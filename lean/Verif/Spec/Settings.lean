/-
Settings by variables of the environment.
-/

namespace Ratel.Spec

/-- The two texts are the same but for upper and lower case (of ASCII letters). -/
def SameText (a b : String) : Prop := a.toList.map Char.toLower = b.toList.map Char.toLower

/-- The variable is the one for this setting of this section: `RATELMQ_<section>__<setting>`, in upper or lower case. A name may also be
written with a dot in the place of the two underscores. -/
def IsVariable (name sec setting : String) : Prop :=
  SameText name ("RATELMQ_" ++ sec ++ "__" ++ setting) ∨ SameText name ("RATELMQ_" ++ sec ++ "." ++ setting)

/-- The name begins with this text, in upper or lower case. -/
def BeginsWith (name text : String) : Prop := text.toList.map Char.toLower <+: name.toList.map Char.toLower

/-- The variable has to do with the settings: it begins with RATELMQ_MQTT or RATELMQ_AUTHENTICATION. -/
def Concerns (n : String) : Prop := BeginsWith n "RATELMQ_MQTT" ∨ BeginsWith n "RATELMQ_AUTHENTICATION"

end Ratel.Spec
