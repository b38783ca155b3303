/-!
Model of include/ext/callbacks.h: registering functions for events instead of overriding virtual functions.

A registered function is named by a number; what it does is given by an environment: which result it returns for which argument, and which registrations it makes while it runs (a callback has a pointer to the socket, so it can
call register_xxx). Arguments are numbers, too. Simplification: replacing a boost::function while it is running is treated as safe here (it destroys the running function object, which a functor with captures must not notice).
-/
set_option autoImplicit false
namespace StAsio

/-- The events, include/ext/callbacks.h:81-103, 178-180, 202, 220, 241-244, 267. -/
inductive CbEv where
  | obsoleted | isReady | sendHeartbeat | reset | onHeartbeatError | onSendError | onRecvError | onClose | afterClose | onMsg | onMsgHandle | onMsgHandleBatch | onMsgSend | onAllMsgSend
  | calcShrinkSize | onMsgDiscard | onConnect | onUnpackError | onAsyncShutdownError | prepareReconnect | takeOver | asyncAcceptNum | startNextAccept | onAccept | onAcceptError | onCreate
  deriving DecidableEq, Repr

inductive CbKind where
  | void | combine | ret
  deriving DecidableEq, Repr

/-- Lines 106-136, 183-185, 205, 223, 247-250, 273. -/
def CbEv.kind : CbEv → CbKind
  | .obsoleted | .isReady | .onHeartbeatError | .onMsgHandle | .onAccept | .onAcceptError => .combine
  | .onMsg | .onMsgHandleBatch | .calcShrinkSize | .prepareReconnect | .asyncAcceptNum => .ret
  | _ => .void

/-- The default of the argument pass_on, lines 81-103, 178-180, 202, 220, 241-244, 267. -/
def CbEv.passOnDefault : CbEv → Bool
  | .sendHeartbeat | .onMsg | .onMsgHandle | .onMsgHandleBatch | .onMsgSend | .onAllMsgSend | .calcShrinkSize | .onMsgDiscard | .onConnect | .prepareReconnect | .takeOver | .asyncAcceptNum | .onCreate => false
  | _ => true

/-- std::pair<boost::function<…>, bool>: lines 140-164; `stop` is !pass_on. -/
structure CbReg where
  fn : Option Nat
  stop : Bool
  deriving DecidableEq, Repr

/-- All registrations of an object. -/
abbrev Cbs := CbEv → CbReg

/-- std::pair value-initializes: no function, false. -/
def Cbs.init : Cbs := fun _ => { fn := none, stop := false }

/-- register_xxx(cb, pass_on), lines 32-41; `none` is an empty function. -/
def Cbs.register (s : Cbs) (e : CbEv) (cb : Option Nat) (passOn : Bool) : Cbs := fun e' => if e' = e then { fn := cb, stop := !passOn } else s e'

/-- What the user's functions and the overridden virtual functions do. -/
structure CbEnv where
  /-- registrations made by the function `id` while it runs -/
  regs : Nat → List (CbEv × Option Nat × Bool)
  /-- its result for an argument, for boolean events and for others -/
  cbBool : Nat → Nat → Bool
  cbVal : Nat → Nat → Int
  dfBool : CbEv → Nat → Bool
  dfVal : CbEv → Nat → Int

/-- What ran. -/
inductive Ran where
  | callback (id : Nat) (p : Nat)
  | default (e : CbEv) (p : Nat)
  deriving DecidableEq, Repr

/-- Calling the function `id`. -/
def CbEnv.call (env : CbEnv) (s : Cbs) (id : Nat) : Cbs := (env.regs id).foldl (fun s r => s.register r.1 r.2.1 r.2.2) s

/-- call_cb_void, call_cb_1_void, call_cb_2_void: lines 22-24 -/
def Cbs.fireVoid (env : CbEnv) (s : Cbs) (e : CbEv) (p : Nat) : Cbs × List Ran :=
  let r : Cbs × List Ran := match (s e).fn with
    | some id => (env.call s id, [.callback id p])
    | none => (s, [])
  if (r.1 e).stop then r else (r.1, r.2 ++ [.default e p])

/-- call_cb_combine, call_cb_1_combine, call_cb_2_combine: lines 26, 28, 30 -/
def Cbs.fireBool (env : CbEnv) (s : Cbs) (e : CbEv) (p : Nat) : Cbs × List Ran × Bool :=
  let r : Cbs × List Ran × Bool := match (s e).fn with
    | some id => (env.call s id, [.callback id p], env.cbBool id p)
    | none => (s, [], true)
  if r.2.2 && !(r.1 e).stop then (r.1, r.2.1 ++ [.default e p], env.dfBool e p) else r

/-- call_cb_return, call_cb_1_return: lines 27, 29 -/
def Cbs.fireVal (env : CbEnv) (s : Cbs) (e : CbEv) (p : Nat) : Cbs × List Ran × Int :=
  let r : Cbs × List Ran × Int := match (s e).fn with
    | some id => (env.call s id, [.callback id p], env.cbVal id p)
    | none => (s, [], 0)
  if (r.1 e).stop then r else (r.1, r.2.1 ++ [.default e p], env.dfVal e p)

/-- What a user and the library do with an object. -/
inductive CbAct where
  | register (e : CbEv) (cb : Option Nat) (passOn : Bool)
  | fire (e : CbEv) (p : Nat)
  deriving DecidableEq, Repr

/-- An event occurs: the virtual function is called. -/
def Cbs.fire (env : CbEnv) (s : Cbs) (e : CbEv) (p : Nat) : Cbs × List Ran :=
  match e.kind with
  | .void => s.fireVoid env e p
  | .combine => ((s.fireBool env e p).1, (s.fireBool env e p).2.1)
  | .ret => ((s.fireVal env e p).1, (s.fireVal env e p).2.1)

/-- A history. -/
def Cbs.run (env : CbEnv) : Cbs → List CbAct → Cbs
  | s, [] => s
  | s, .register e cb passOn :: as => Cbs.run env (s.register e cb passOn) as
  | s, .fire e p :: as => Cbs.run env (s.fire env e p).1 as

end StAsio
