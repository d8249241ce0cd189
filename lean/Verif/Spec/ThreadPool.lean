import Verif.Model.ThreadPool

/-!
How the observed events of a thread pool are read: the tasks accepted, started, finished, in the order of the events.
-/

set_option autoImplicit false

namespace SpaceHub.Conc
variable {T : Type}

/-- The tasks accepted by `commit`, in the order of acceptance. -/
def acceptedOf (log : List (Event T)) : List T := log.filterMap fun | .accepted t => some t | _ => none
/-- The tasks started, in the order of starting. -/
def startedOf (log : List (Event T)) : List T := log.filterMap fun | .started t => some t | _ => none
/-- The tasks that were run to their end. -/
def finishedOf (log : List (Event T)) : List T := log.filterMap fun | .finished t => some t | _ => none

end SpaceHub.Conc
