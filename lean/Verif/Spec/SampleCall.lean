import Verif.Model.SampleCall

/-! # Distributions that draw from a Mixture -/

namespace Verif.SampleCall

/-- a Mixture, or a Mixture censored any number of times -/
inductive DrawsMixture : Dist → Prop
  | mixture (ds : List Dist) : DrawsMixture (.mixture ds)
  | censored {d : Dist} : DrawsMixture d → DrawsMixture (.censored d)

end Verif.SampleCall
