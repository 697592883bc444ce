import Verif.Model.Queue

/-!
# Model: the futures of the queue, poll by poll

`send_queued_mail` and `run` build their tasks with the combinators of futures 0.1 (`and_then`, `then`, `map`, `map_err`, `for_each`,
`Either`, `Box`) and tokio 0.1 (`spawn`, `Delay`). Here the combinators are modelled as in these libraries, and the two
functions as the expressions they are. `Model/Queue.lean` has the transition system; `Props/QueueFutures.lean` shows that it is
what these futures do.

A future is polled with a list of answers for the operations it polls: `none` is `NotReady` (as is the end of the list).
-/

namespace Verif.QFut
open Queue

/-- The values futures answer: an error, `()`, a mail of the queue, an in-flight mail, a message, and a pair of the last two
(send_queued_mail.rs:25). -/
inductive Val where
  | err
  | unit
  | queued (m : MailId)
  | inflight (c : Claim)
  | mail (body : MailId)
  | pair (c : Claim) (body : MailId)
  deriving DecidableEq, Repr

/-- The answer of an operation as a value. -/
def Val.of : Ans → Val
  | .err => .err
  | .ok => .unit
  | .queued m => .queued m
  | .inflight c => .inflight c
  | .mail b => .mail b

/-- What code does besides returning a value. -/
inductive Eff where
  /-- it calls an operation, which gives a future -/
  | call (o : Op)
  /-- `tokio::spawn(send_queued_mail(storage, transport, qm))`: the argument calls `send_start`, and is spawned -/
  | spawnSend (m : MailId)
  /-- `tokio::spawn(Delay::new(..)..)`: likewise for the recovery of a mail -/
  | spawnRecover (deadline : Nat) (c : Claim)
  deriving DecidableEq, Repr

/-- A future. -/
inductive Fut where
  /-- the future of an operation that was called and has not answered -/
  | leaf (o : Op)
  /-- a future that is ready, as that of `tokio::spawn` -/
  | done (v : Val)
  /-- futures 0.1 `Chain::First(f, closure)`; the closure, given the result, does `eff` and returns a future. `Chain::Second(b)`
  polls `b` and nothing else, so it is the future `b` itself here. -/
  | chain (f : Fut) (eff : Val → List Eff) (k : Val → Fut)

/-- What an expression does when it is evaluated, and the future it is. -/
abbrev Built := List Eff × Fut

/-- `f.then(g)` -/
def Fut.then_ (f : Fut) (g : Val → Built) : Fut := .chain f (fun v => (g v).1) (fun v => (g v).2)

/-- `f.and_then(g)`: an error is passed on. -/
def Fut.andThen (f : Fut) (g : Val → Built) : Fut :=
  f.then_ fun v => if v = .err then ([], .done .err) else g v

/-- `f.map(h)` -/
def Fut.map (f : Fut) (h : Val → Val) : Fut := f.andThen fun v => ([], .done (h v))

/-- `f.map_err(|_| ())`: there is one error only here. -/
def Fut.mapErr (f : Fut) : Fut := f

/-- A method is called: storage.rs, mail.rs, transport.rs, `Delay::new`. -/
def call (o : Op) : Built := ([.call o], .leaf o)

/-- `send_queued_mail` (send_queued_mail.rs:9-40). Values of other types than the closures take do not occur: `([], .done .err)`. -/
def sendQueuedMail (m : MailId) : Built :=
  -- storage.send_start(mail)
  let start := call (.sendStart m)
  (start.1,
    ((start.2
      -- .and_then(|im| im.get_mail().map(|mail| (im, mail)))
      |>.andThen fun
        | .inflight im => ((call (.getMail im)).1, (call (.getMail im)).2.map fun
            | .mail b => .pair im b
            | _ => .err)
        | _ => ([], .done .err))
      -- .and_then(|(im, mail)| transport.send(mail).then(|res| match res {
      |>.andThen fun
        | .pair im b => ((call (.transportSend im b)).1, (call (.transportSend im b)).2.then_ fun res =>
            if res = .err then
              -- Err(_) => Either::B(storage.send_cancel(im).and_then(|qm| tokio::spawn(send_queued_mail(storage, transport, qm))))
              ((call (.sendCancel im)).1, (call (.sendCancel im)).2.andThen fun
                | .queued qm => ([.spawnSend qm], .done .unit)
                | _ => ([], .done .err))
            else
              -- Ok(()) => Either::A(storage.send_done(im))
              call (.sendDone im))
        | _ => ([], .done .err)))

/-- The future `run` spawns for a mail found in flight (run.rs:44-49). -/
def recover (startup : Nat) (c : Claim) : Built :=
  let delay := call (.delay (startup + recoveryDelay) c)
  (delay.1,
    (delay.2.mapErr.andThen fun _ => call (.cancelFound c)).andThen fun
      | .queued qm => sendQueuedMail qm
      | _ => ([], .done .err))

/-- What is seen of a poll. -/
inductive PEv where
  /-- the future of an operation is polled, and answers -/
  | polled (o : Op) (a : Option Ans)
  | did (e : Eff)
  deriving DecidableEq, Repr

inductive Out where
  | notReady (f : Fut)
  | ready (v : Val)

/-- One poll (futures 0.1, `Chain::poll`: the second future is polled as soon as it is there). Also gives the answers that were
not used. -/
def Fut.poll : Fut → List (Option Ans) → List PEv × Out × List (Option Ans)
  | .leaf o, [] => ([.polled o none], .notReady (.leaf o), [])
  | .leaf o, none :: as => ([.polled o none], .notReady (.leaf o), as)
  | .leaf o, some a :: as => ([.polled o (some a)], .ready (.of a), as)
  | .done v, as => ([], .ready v, as)
  | .chain f eff k, as =>
    match f.poll as with
    | (es, .notReady f', as') => (es, .notReady (.chain f' eff k), as')
    | (es, .ready v, as') =>
      let r := (k v).poll as'
      (es ++ (eff v).map .did ++ r.1, r.2)

/-- An executor polls a future again and again, until it is ready. Each poll has its own answers. The records of the polls, and how
it stands after them. -/
def Fut.polls : Fut → List (List (Option Ans)) → List (List PEv) × Out
  | f, [] => ([], .notReady f)
  | f, as :: rest =>
    match f.poll as with
    | (es, .notReady f', _) => let r := f'.polls rest; (es :: r.1, r.2)
    | (es, .ready v, _) => ([es], .ready v)

/-! ### `run` -/

/-- What a stream of the storage answers to a poll. -/
inductive SAns (α : Type) where
  | notReady
  | item (x : α)
  | ended
  | err
  deriving DecidableEq, Repr

/-- What is seen of a poll of `run`. -/
inductive REv where
  /-- the stream of `list_queue` is polled -/
  | polledList (a : SAns MailId)
  /-- `storage.find_inflight()` is called -/
  | calledFind
  /-- its stream is polled -/
  | polledFind (a : SAns Claim)
  | did (e : Eff)
  deriving DecidableEq, Repr

/-- futures 0.1 `ForEach { stream, f, fut }`: what `fut` is. -/
abbrev ForEach := Option Fut

/-- How a poll of a `ForEach` ends. -/
inductive FOut where
  | notReady (fut : ForEach)
  | ready
  | err

/-- The beginning of the loop of `ForEach::poll`: `if let Some(mut fut) = self.fut.take()`, it is polled. The futures of the two
closures of `run` are those of `tokio::spawn`, and have no operations: there are no answers for them. -/
def ForEach.inner : ForEach → FOut
  | none => .ready
  | some fut => match fut.poll [] with
    | (_, .notReady f', _) => .notReady (some f')
    | (_, .ready v, _) => if v = .err then .err else .ready

/-- `ForEach::poll` (futures 0.1): `loop { poll fut, if there is one; match try_ready!(stream.poll()) { Some(e) => fut = Some(f(e)),
None => return Ready } }`. -/
def ForEach.poll {α : Type} (ev : SAns α → REv) (f : α → Built) (fut : ForEach) : List (SAns α) → List REv × FOut
  | [] => match fut.inner with
    | .ready => ([ev .notReady], .notReady none)
    | out => ([], out)
  | a :: as => match fut.inner with
    | .ready => match a with
      | .notReady => ([ev .notReady], .notReady none)
      | .ended => ([ev .ended], .ready)
      | .err => ([ev .err], .err)
      | .item x =>
        let r := ForEach.poll ev f (some (f x).2) as
        (ev (.item x) :: (f x).1.map .did ++ r.1, r.2)
    | out => ([], out)

/-- The closure of run.rs:30-36. -/
def listed (m : MailId) : Built := ([.spawnSend m], .done .unit)

/-- The closure of run.rs:41-50. -/
def found (startup : Nat) (c : Claim) : Built := ([.spawnRecover (startup + recoveryDelay) c], .done .unit)

/-- The future of `run` (run.rs:27-51): `Chain::First`, `Chain::Second`. -/
inductive RunFut where
  | first (fe : ForEach)
  | second (fe : ForEach)

inductive ROut where
  | notReady (f : RunFut)
  | ready
  | err

/-- The second future of the chain. -/
def RunFut.pollSecond (startup : Nat) (fe : ForEach) (bs : List (SAns Claim)) : List REv × ROut :=
  match fe.poll .polledFind (found startup) bs with
  | (es, .notReady fe') => (es, .notReady (.second fe'))
  | (es, .ready) => (es, .ready)
  | (es, .err) => (es, .err)

/-- One poll of `run`: `list_queue().for_each(..).and_then(|()| find_inflight().for_each(..))`. The two lists are the answers of the
two streams. -/
def RunFut.poll (startup : Nat) : RunFut → List (SAns MailId) → List (SAns Claim) → List REv × ROut
  | .first fe, as, bs => match fe.poll .polledList listed as with
    | (es, .notReady fe') => (es, .notReady (.first fe'))
    | (es, .err) => (es, .err)
    | (es, .ready) =>
      let r := RunFut.pollSecond startup none bs
      (es ++ .calledFind :: r.1, r.2)
  | .second fe, _, bs => RunFut.pollSecond startup fe bs

/-- `run` is polled again and again, until it is ready. -/
def RunFut.polls (startup : Nat) : RunFut → List (List (SAns MailId) × List (SAns Claim)) → List (List REv) × ROut
  | f, [] => ([], .notReady f)
  | f, (as, bs) :: rest =>
    match f.poll startup as bs with
    | (es, .notReady f') => let r := f'.polls startup rest; (es :: r.1, r.2)
    | (es, .ready) => ([es], .ready)
    | (es, .err) => ([es], .err)

/-- The future `run` returns: `list_queue` has been called, nothing polled (run.rs:24-28). -/
def RunFut.new : RunFut := .first none

end Verif.QFut
