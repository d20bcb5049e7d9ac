import Verif.Model.BayesMessages

/-! # What the messages of `bayesnet` say -/

namespace Verif.Spec

/-- The message says that the event function is being run. -/
def saysGenerating : BMsg → Bool
  | .generating => true
  | .generatingCores _ => true
  | _ => false

/-- The message says that cached events are being used. -/
def saysLoading : BMsg → Bool
  | .loadingFile _ => true
  | .loadingMemory => true
  | _ => false

/-- The message says that something is being saved. -/
def saysSaving : BMsg → Bool
  | .cachingMemory => true
  | .writingFile _ => true
  | _ => false

/-- Every announcement has been followed up: as many "...Loaded" as "Loading...", and so on; and every progress bar is
closed. -/
def FollowedUp (ms : List BMsg) : Prop :=
  ms.countP saysLoading = ms.count .loaded ∧
  ms.countP saysSaving = ms.count .cached ∧
  ms.count .collecting = ms.count .collected ∧
  ms.count .filtering = ms.count .filtered ∧
  ms.count .finding = ms.count .found ∧
  ms.count .reducing = ms.count .reduced ∧
  ∀ total count closed, .bar total count closed ∈ ms → closed = true

end Verif.Spec
