import Verif.Spec.Callbacks
/-!
C51: callbacks (include/ext/callbacks.h). The theorems range over all histories of registrations and events and over all functions of the user that do not re-register the event in question while they run;
C51_reregister shows what happens otherwise.
-/
set_option autoImplicit false
namespace StAsio

theorem Cbs.call_steady {env : CbEnv} {e : CbEv} (he : env.Steady e) (s : Cbs) (id : Nat) : env.call s id e = s e := by
  have h := he id
  unfold CbEnv.call
  generalize env.regs id = rs at h
  induction rs generalizing s with
  | nil => rfl
  | cons r rs ih =>
    rw [List.foldl_cons, ih _ (fun x hx => h x (by simp [hx]))]
    have := h r (by simp)
    simp [Cbs.register, Ne.symm this]

theorem Cbs.fire_steady {env : CbEnv} {e : CbEv} (he : env.Steady e) (s : Cbs) (e' : CbEv) (p : Nat) : (s.fire env e' p).1 e = s e := by
  unfold Cbs.fire
  split
  · unfold Cbs.fireVoid
    cases (s e').fn <;> simp only <;> split <;> simp [Cbs.call_steady he]
  · unfold Cbs.fireBool
    cases (s e').fn <;> simp only <;> split <;> simp [Cbs.call_steady he]
  · unfold Cbs.fireVal
    cases (s e').fn <;> simp only <;> split <;> simp [Cbs.call_steady he]

/-- The registration in force is the last one of the history. -/
theorem Cbs.run_reg {env : CbEnv} {e : CbEv} (he : env.Steady e) (as : List CbAct) (s : Cbs) :
    Cbs.run env s as e = match lastRegistration e as with
      | some r => { fn := r.1, stop := !r.2 }
      | none => s e := by
  induction as generalizing s with
  | nil => rfl
  | cons a as ih =>
    cases a with
    | register e' cb passOn =>
      rw [Cbs.run, ih, lastRegistration]
      cases lastRegistration e as with
      | some r => rfl
      | none =>
        simp only
        by_cases h : e' = e
        · simp [Cbs.register, h]
        · simp [Cbs.register, h, Ne.symm h]
    | fire e' p =>
      rw [Cbs.run, ih, lastRegistration]
      cases lastRegistration e as with
      | some r => rfl
      | none => simp [Cbs.fire_steady he]

/-- **C51** (nothing registered): without a registration only the default handler runs, and its result is the result. -/
theorem C51_unregistered (env : CbEnv) (e : CbEv) (he : env.Steady e) (as : List CbAct) (p : Nat) (hl : lastRegistration e as = none) :
    let s := Cbs.run env Cbs.init as
    (s.fireVoid env e p).2 = [.default e p] ∧ (s.fireBool env e p).2 = ([.default e p], env.dfBool e p) ∧ (s.fireVal env e p).2 = ([.default e p], env.dfVal e p) := by
  have h := Cbs.run_reg he as Cbs.init
  rw [hl] at h
  simp only [Cbs.init] at h
  simp [Cbs.fireVoid, Cbs.fireBool, Cbs.fireVal, h]

/-- **C51** (void events): the function registered last runs, and after it the default handler if and only if it was registered with pass_on. -/
theorem C51_void (env : CbEnv) (e : CbEv) (he : env.Steady e) (as : List CbAct) (p : Nat) (id : Nat) (passOn : Bool) (hl : lastRegistration e as = some (some id, passOn)) :
    ((Cbs.run env Cbs.init as).fireVoid env e p).2 = if passOn then [.callback id p, .default e p] else [.callback id p] := by
  have h := Cbs.run_reg he as Cbs.init
  rw [hl] at h
  cases passOn <;> simp [Cbs.fireVoid, h, Cbs.call_steady he]

/-- **C51** (boolean events): the function registered last runs; after it the default handler runs if and only if the function agreed and was registered with pass_on; the result is the conjunction of the results of what ran. -/
theorem C51_boolean (env : CbEnv) (e : CbEv) (he : env.Steady e) (as : List CbAct) (p : Nat) (id : Nat) (passOn : Bool) (hl : lastRegistration e as = some (some id, passOn)) :
    ((Cbs.run env Cbs.init as).fireBool env e p).2 =
      (if passOn ∧ env.cbBool id p = true then [.callback id p, .default e p] else [.callback id p],
        if passOn then env.cbBool id p && env.dfBool e p else env.cbBool id p) := by
  have h := Cbs.run_reg he as Cbs.init
  rw [hl] at h
  cases passOn <;> cases hb : env.cbBool id p <;> simp [Cbs.fireBool, h, Cbs.call_steady he, hb]

/-- **C51** (other results): the function registered last runs, after it the default handler if and only if it was registered with pass_on; the default handler's result replaces that of the function. -/
theorem C51_value (env : CbEnv) (e : CbEv) (he : env.Steady e) (as : List CbAct) (p : Nat) (id : Nat) (passOn : Bool) (hl : lastRegistration e as = some (some id, passOn)) :
    ((Cbs.run env Cbs.init as).fireVal env e p).2 = if passOn then ([.callback id p, .default e p], env.dfVal e p) else ([.callback id p], env.cbVal id p) := by
  have h := Cbs.run_reg he as Cbs.init
  rw [hl] at h
  cases passOn <;> simp [Cbs.fireVal, h, Cbs.call_steady he]

/-- Registering an empty function with pass_on restores the default, without it the event is switched off: nothing runs, the result is true or 0. -/
theorem C51_empty (env : CbEnv) (e : CbEv) (he : env.Steady e) (as : List CbAct) (p : Nat) (passOn : Bool) (hl : lastRegistration e as = some (none, passOn)) :
    let s := Cbs.run env Cbs.init as
    (s.fireVoid env e p).2 = (if passOn then [.default e p] else []) ∧ (s.fireBool env e p).2 = (if passOn then ([.default e p], env.dfBool e p) else ([], true)) ∧
      (s.fireVal env e p).2 = (if passOn then ([.default e p], env.dfVal e p) else ([], 0)) := by
  have h := Cbs.run_reg he as Cbs.init
  rw [hl] at h
  cases passOn <;> simp [Cbs.fireVoid, Cbs.fireBool, Cbs.fireVal, h]

/-- **C51** (the library goes on working): if functions for the void events on which the library's own bookkeeping depends (reset, on_send_error, on_recv_error, on_close, after_close, on_unpack_error, on_async_shutdown_error,
start_next_accept) are registered with the default for pass_on, then in every history the default handler of such an event runs, as the last thing. -/
theorem C51_bookkeeping (env : CbEnv) (e : CbEv) (he : env.Steady e) (as : List CbAct) (p : Nat)
    (hd : e ∈ [CbEv.reset, .onSendError, .onRecvError, .onClose, .afterClose, .onUnpackError, .onAsyncShutdownError, .startNextAccept])
    (hr : ∀ cb passOn, CbAct.register e cb passOn ∈ as → passOn = e.passOnDefault) : ∃ l, ((Cbs.run env Cbs.init as).fire env e p).2 = l ++ [.default e p] := by
  have hk : e.kind = .void ∧ e.passOnDefault = true := by
    simp at hd
    rcases hd with rfl | rfl | rfl | rfl | rfl | rfl | rfl | rfl <;> exact ⟨rfl, rfl⟩
  have hmem : ∀ (as : List CbAct) (r : Option Nat × Bool), lastRegistration e as = some r → CbAct.register e r.1 r.2 ∈ as := by
    intro as
    induction as with
    | nil => intro r h; cases h
    | cons a as ih =>
      intro r h
      rw [lastRegistration.eq_def] at h; simp only at h
      cases hl : lastRegistration e as with
      | some r' => rw [hl] at h; cases h; exact List.mem_cons_of_mem _ (ih _ hl)
      | none =>
        rw [hl] at h
        cases a with
        | fire => cases h
        | register e' cb passOn =>
          simp only at h
          split at h
          · rename_i he'; cases h; subst he'; simp
          · cases h
  simp only [Cbs.fire, hk.1]
  cases hl : lastRegistration e as with
  | none => exact ⟨[], (C51_unregistered env e he as p hl).1⟩
  | some r =>
    obtain ⟨cb, passOn⟩ := r
    have hp := hr _ _ (hmem as _ hl)
    simp only [hk.2] at hp
    subst hp
    cases cb with
    | none => exact ⟨[], by simpa using (C51_empty env e he as p true hl).1⟩
    | some id => exact ⟨[.callback id p], by simpa using C51_void env e he as p id true hl⟩

/-- A function that re-registers its event while it runs: the default handler does not run although the running function was registered with pass_on, because pass_on is read after the call. -/
theorem C51_reregister : ∃ env : CbEnv, lastRegistration .onClose [.register .onClose (some 1) true] = some (some 1, true) ∧
    ((Cbs.run env Cbs.init [.register .onClose (some 1) true]).fireVoid env .onClose 0).2 = [.callback 1 0] :=
  ⟨{ regs := fun id => if id = 1 then [(.onClose, some 2, false)] else [], cbBool := fun _ _ => true, cbVal := fun _ _ => 0, dfBool := fun _ _ => true, dfVal := fun _ _ => 0 }, rfl, by decide⟩

/-! ### the hypotheses can be met -/

/-- An environment in which function 1 registers another event's callback while it runs; on_accept agrees for argument 7 only. -/
def cbDemoEnv : CbEnv :=
  { regs := fun id => if id = 1 then [(.onMsgHandle, some 2, false)] else [], cbBool := fun _ p => p == 7, cbVal := fun _ _ => 5, dfBool := fun _ p => p != 9, dfVal := fun _ _ => 3 }

theorem cbDemo_steady : cbDemoEnv.Steady .onAccept := by
  intro id r hr
  simp only [cbDemoEnv] at hr
  split at hr
  · simp at hr; subst hr; decide
  · cases hr

example : let as : List CbAct := [.register .onAccept (some 3) false, .fire .onAccept 4, .register .onClose (some 1) true, .fire .onClose 0, .register .onAccept (some 4) true, .fire .onMsgHandle 2]
    lastRegistration .onAccept as = some (some 4, true) ∧ ((Cbs.run cbDemoEnv Cbs.init as).fireBool cbDemoEnv .onAccept 7).2 = ([.callback 4 7, .default .onAccept 7], true) ∧
      ((Cbs.run cbDemoEnv Cbs.init as).fireBool cbDemoEnv .onAccept 8).2 = ([.callback 4 8], false) ∧ (Cbs.run cbDemoEnv Cbs.init as .onMsgHandle).fn = some 2 := by decide

end StAsio
