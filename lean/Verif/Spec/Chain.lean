import Verif.Spec.Restart
import Verif.Spec.Mirror
import Verif.Spec.Durable
import Verif.Spec.LTS
import Verif.Spec.History

/-! What is asked of replicas of replicas. -/

namespace Verif.Spec

/-- The full claim: whoever is started with an empty file as a replica of a server that has nothing to do and has written out its log answers GET as that
server does. That server has started as a replica of another one, with a file of its own that holds the records of `k` and with `got` from its master. -/
def PassedOn : Prop := ∀ (ω : Nat → Nat) (k h : List Req) (got : Bytes) (envs envs' : Nat → Env) (dbs : DBs) (tr : List Master.Ev) (s : Master.Sys) (c : Nat),
  (∀ q ∈ k ++ h, q.Occurs) → (∀ i, (envs i).ord.Fair) → (∀ i, (envs' i).ord.Fair) →
  syncExternal envs envs' (some (historyLog k)) (some got) = .ok dbs →
  Exec (Master.Step (Engine.Step ω) ω) (Master.new (Engine.startOn (historyLog k) (dbs 1) h) true) tr s → Idle s.engine → AllOut s.engine → .finished c ∈ tr →
  ∃ dbs', syncExternal envs envs' (some []) (some (s.stream c)) = .ok dbs' ∧
    ∀ env key st r, handle env s.engine.db [.bulk b!"get", .bulk key] = .ok (st, r) → ∃ st', handle env (dbs' 1) [.bulk b!"get", .bulk key] = .ok (st', r)

end Verif.Spec
