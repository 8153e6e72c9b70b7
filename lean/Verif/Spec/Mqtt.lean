/-
Which topics a filter matches according to MQTT 3.1.1, 4.7.1 and 4.7.2, also where the broker deviates.
-/
import Verif.Spec.Topic

namespace Ratel.Spec

/-- The levels of a filter match the levels of a topic according to 4.7.1: a final '#' stands for any number of levels, also none. -/
inductive MqttLevels : List String → List String → Prop
  | done : MqttLevels [] []
  | hash (ts : List String) : MqttLevels ["#"] ts
  | plus (t : String) (fs ts : List String) : MqttLevels fs ts → MqttLevels ("+" :: fs) (t :: ts)
  | literal (t : String) (fs ts : List String) : MqttLevels fs ts → MqttLevels (t :: fs) (t :: ts)

/-- The topic begins with '$' and the filter with a wildcard (4.7.2). -/
def Hidden (filter topic : String) : Prop := topic.toList.head? = some '$' ∧ (filter.toList.head? = some '#' ∨ filter.toList.head? = some '+')

/-- A filter matches a topic according to MQTT. -/
def MqttMatches (filter topic : String) : Prop :=
  (∃ fs ts, Levels filter fs ∧ Levels topic ts ∧ MqttLevels fs ts) ∧ ¬ Hidden filter topic

/-- The filter is "…/#", and what stands before matches the topic: the topic is the parent of what the '#' stands for (4.7.1.2). -/
def Parent (filter topic : String) : Prop :=
  ∃ fs ts, Levels filter (fs ++ ["#"]) ∧ Levels topic ts ∧ fs ≠ [] ∧ "#" ∉ fs ∧ LevelsMatch fs ts

/-- Some topic a message may be published to matches the filter. -/
def Useful (filter : String) : Prop := ∃ t, PlainTopic t ∧ Matches filter t

end Ratel.Spec
