import Verif.Model.UdpLife
import Verif.Props.C24_UdpSend
/-!
# C78: UDP messages over close and start

`Ul.Run Ul.init as s es`: senders, the kernel, and the user starting, closing and resetting a UDP socket (without KCP) do `as`; `es` is what could be observed: the events of Model/UdpSend.lean, `up` (started) and `down` (closed).
-/
set_option autoImplicit false
set_option linter.unusedSimpArgs false
namespace StAsio

/-- The events of the sender among them. -/
def ulSends (es : List UlEv) : List UEv := es.filterMap (fun e => match e with | .ux e => some e | _ => none)

/-- Specification: no message given to the socket while it is closed is reported as sent. First component: the socket is open; second one: the message in flight was given to a closed socket. -/
def ulNext : Bool × Bool → UlEv → Option (Bool × Bool)
  | (_, late), .up => some (true, late)
  | (_, late), .down => some (false, late)
  | (op, _), .ux (.handOff _) => some (op, !op)
  | (op, late), .ux (.sent _) => if late then none else some (op, late)
  | st, .ux _ => some st

def ulHonest (es : List UlEv) : Bool := (es.foldlM ulNext (false, false)).isSome

/-- The actions of the sending machine. -/
def ulActs (as : List UlAct) : List UAct := as.filterMap (fun a => match a with | .ux a => some a | .start => some .linkUp | .onClose => some .onClose | .reset => some .reset | .close => none)

theorem ulSends_ux (es : List UEv) : ulSends (es.map UlEv.ux) = es := by
  induction es with
  | nil => rfl
  | cons e es ih => simp only [ulSends, List.map_cons, List.filterMap_cons] at *; rw [ih]

theorem ulSends_append (es fs : List UlEv) : ulSends (es ++ fs) = ulSends es ++ ulSends fs := by simp [ulSends]

/-- A step is a step of the sending machine, or closes the socket. -/
theorem Ul.step_sim {s s' : Ul} {a : UlAct} {es : List UlEv} (hs : Ul.step s a = some (s', es)) :
    (ulActs [a] = [] ∧ ulSends es = [] ∧ s'.ux = s.ux) ∨ ∃ u, ulActs [a] = [u] ∧ Ux.step false s.ux u = some (s'.ux, ulSends es) := by
  cases a <;> simp only [Ul.step] at hs
  case close =>
    split at hs
    · cases hs; exact Or.inl ⟨rfl, rfl, rfl⟩
    · cases hs
  all_goals
    split at hs
    all_goals first
      | (cases hs; done)
      | (simp only [Option.map_eq_some_iff, Prod.mk.injEq] at hs
         obtain ⟨⟨u, fs⟩, hu, rfl, rfl⟩ := hs
         refine Or.inr ⟨_, rfl, ?_⟩
         first
           | (rw [ulSends_ux]; exact hu)
           | (simp only [Ux.step] at hu ⊢
              split at hu
              · cases hu
              · rename_i hc
                simp only [if_neg hc]
                cases hu; rfl))

theorem Ul.run_sim {s : Ul} {as : List UlAct} {es : List UlEv} (hr : Ul.Run Ul.init as s es) : Ux.Run false Ux.init (ulActs as) s.ux (ulSends es) := by
  generalize h0 : Ul.init = s0 at hr
  induction hr with
  | nil => subst h0; exact .nil _
  | snoc s1 s2 as a es es' hr hs ih =>
    subst h0
    have ha : ulActs (as ++ [a]) = ulActs as ++ ulActs [a] := by simp [ulActs]
    rw [ulSends_append, ha]
    rcases Ul.step_sim hs with ⟨h1, h2, h3⟩ | ⟨u, h1, h2⟩
    · rw [h1, h2, h3]; simpa using ih
    · rw [h1]; exact .snoc _ _ _ _ _ _ _ ih h2

theorem Ul.exec_run {s s' : Ul} {as : List UlAct} {es : List UlEv} (h : Ul.exec s as = some (s', es)) : Ul.Run s as s' es := by
  suffices ∀ bs t fs, Ul.Run t bs s fs → Ul.Run t (bs ++ as) s' (fs ++ es) by simpa using this [] s [] (.nil s)
  induction as generalizing s es with
  | nil => intro bs t fs ht; simp only [Ul.exec, Option.some.injEq, Prod.mk.injEq] at h; obtain ⟨rfl, rfl⟩ := h; simpa using ht
  | cons a as ih =>
    intro bs t fs ht
    simp only [Ul.exec, Option.bind_eq_bind, Option.bind_eq_some_iff] at h
    obtain ⟨⟨s1, es1⟩, h1, ⟨s2, es2⟩, h2, h3⟩ := h
    simp only [Option.pure_def, Option.some.injEq, Prod.mk.injEq] at h3
    obtain ⟨rfl, rfl⟩ := h3
    have := ih h2 (bs ++ [a]) t (fs ++ es1) (.snoc _ _ _ _ _ _ _ ht h1)
    simpa using this

/-- C78: whatever happens - closing, starting again, sending at any moment -, every message given to the socket gets exactly one outcome, in order (only the one in flight has none yet), and without priority, pop, shrink and reset the
messages given to the socket, followed by the waiting ones, are the accepted ones in order: none is lost silently, doubled or overtaken. -/
theorem C78_one_outcome {as : List UlAct} {s : Ul} {es : List UlEv} (h : Ul.Run Ul.init as s es) :
    (uOutcomes (ulSends es)).map (fun o => o.1) ++ s.ux.cur.toList = uHanded (ulSends es) ∧ ((∀ e ∈ ulSends es, UPlainEv e) → uHanded (ulSends es) ++ s.ux.q.items = uAccepted (ulSends es)) :=
  ⟨C24_outcomes false _ _ _ (Ul.run_sim h), C24_order false _ _ _ (Ul.run_sim h)⟩

theorem ul_neutral {es : List UEv} (h : ∀ e ∈ es, (∀ m, e ≠ .handOff m) ∧ ∀ m, e ≠ .sent m) (st : Bool × Bool) : (es.map UlEv.ux).foldlM ulNext st = some st := by
  induction es with
  | nil => rfl
  | cons e es ih =>
    simp only [List.map_cons, List.foldlM_cons, Option.bind_eq_bind]
    have h1 := h e (by simp)
    have : ulNext st (.ux e) = some st := by
      obtain ⟨op, late⟩ := st
      cases e <;> simp [ulNext] at * 
    rw [this]
    exact ih (fun e he => h e (by simp [he]))

theorem uPromise_neutral (m : UMsg) (r : SyncRes) : ∀ e ∈ uPromise m r, (∀ m, e ≠ .handOff m) ∧ ∀ m, e ≠ .sent m := by
  intro e he
  simp only [uPromise, List.mem_map] at he
  obtain ⟨p, _, rfl⟩ := he
  simp

structure Ul.Ok (f : Bool) (s : Ul) : Prop where
  live : s.isOpen = true → s.live = true
  up : s.isOpen = true → f = false ∧ s.ux.ready = true
  late : s.isOpen = true → s.ux.writes ≠ [] ∨ s.ux.dones ≠ [] → s.late = false
  dones : s.late = true → ∀ d ∈ s.ux.dones, d.ok = false
  cc : s.ux.ccTimer = false
  stopped : s.ux.stopped = false

theorem Ul.step_ok {f : Bool} {s s' : Ul} {a : UlAct} {es : List UlEv} (h : s.Ok f) (hi : s.ux.Inv) (hs : Ul.step s a = some (s', es)) :
    s'.Ok ((ulActs [a]).foldl uFatal f) ∧ es.foldlM ulNext (s.isOpen, s.late) = some (s'.isOpen, s'.late) := by
  obtain ⟨h1, h2, h3, h4, h5, h6⟩ := h
  cases a with
  | start =>
    simp only [Ul.step] at hs
    split at hs
    · cases hs
    · simp only [Option.map_eq_some_iff, Prod.mk.injEq, Ux.step] at hs
      obtain ⟨⟨u, fs⟩, hu, rfl, rfl⟩ := hs
      split at hu
      · cases hu
      · rename_i hc
        have hna := uNoAsync_true (s := s.ux) (by simpa using hc)
        cases hu
        refine ⟨⟨fun _ => rfl, fun _ => ⟨rfl, rfl⟩, ?_, ?_, h5, h6⟩, rfl⟩
        · simp [hna.2.2.1, hna.2.2.2.1]
        · simp [hna.2.2.2.1]
  | close =>
    simp only [Ul.step] at hs
    split at hs
    · cases hs
      exact ⟨⟨by simp, by simp, by simp, h4, h5, h6⟩, rfl⟩
    · cases hs
  | onClose =>
    simp only [Ul.step] at hs
    split at hs
    · rename_i hc
      simp only [Option.map_eq_some_iff, Prod.mk.injEq, Ux.step] at hs
      obtain ⟨⟨u, fs⟩, hu, rfl, rfl⟩ := hs
      split at hu
      · cases hu
      · cases hu
        refine ⟨⟨by simp [hc.2], by simp [hc.2], by simp [hc.2], h4, h5, h6⟩, ul_neutral ?_ _⟩
        intro e he
        simp only [List.mem_flatMap] at he
        obtain ⟨m, _, he⟩ := he
        exact uPromise_neutral _ _ e he
    · cases hs
  | reset =>
    simp only [Ul.step] at hs
    split at hs
    · cases hs
    · rename_i hl
      have ho : s.isOpen = false := by
        cases ho : s.isOpen with
        | false => rfl
        | true => exact absurd (h1 ho) hl
      simp only [Option.map_eq_some_iff, Prod.mk.injEq, Ux.step] at hs
      obtain ⟨⟨u, fs⟩, hu, rfl, rfl⟩ := hs
      split at hu
      · cases hu
      · cases hu
        refine ⟨⟨by simp [ho], by simp [ho], by simp [ho], h4, h5, rfl⟩, ul_neutral ?_ _⟩
        simp
  | ux u =>
    simp only [Ul.step] at hs
    split at hs
    · rename_i hal
      simp only [Option.map_eq_some_iff, Prod.mk.injEq] at hs
      obtain ⟨⟨v, fs⟩, hu, rfl, rfl⟩ := hs
      cases u with
      | linkUp => simp [Ul.allows] at hal
      | onClose => simp [Ul.allows] at hal
      | reset => simp [Ul.allows] at hal
      | timerLost => simp [Ul.allows] at hal
      | timerCC => simp [Ux.step, h5] at hu
      | send m prior fits =>
        simp only [Ux.step] at hu
        split at hu <;> (try split at hu) <;> (try split at hu) <;> cases hu <;> refine ⟨⟨h1, h2, h3, h4, h5, h6⟩, ul_neutral (by simp) _⟩
      | loadReady =>
        simp only [Ux.step] at hu
        split at hu <;> cases hu
        refine ⟨⟨h1, h2, h3, h4, h5, h6⟩, rfl⟩
      | loadFlag =>
        simp only [Ux.step] at hu
        split at hu <;> cases hu
        refine ⟨⟨h1, h2, h3, h4, h5, h6⟩, rfl⟩
      | runPosted =>
        simp only [Ux.step] at hu
        split at hu <;> cases hu
        refine ⟨⟨h1, h2, h3, h4, h5, h6⟩, rfl⟩
      | resumeCheck =>
        simp only [Ux.step] at hu
        split at hu <;> cases hu
        refine ⟨⟨h1, h2, h3, h4, h5, h6⟩, rfl⟩
      | pop =>
        simp only [Ux.step] at hu
        split at hu <;> cases hu
        · exact ⟨⟨h1, h2, h3, h4, h5, h6⟩, rfl⟩
        · refine ⟨⟨h1, h2, h3, h4, h5, h6⟩, ul_neutral ?_ _⟩
          intro e he
          simp only [uPromises, List.map_cons, List.map_nil, List.flatten_cons, List.flatten_nil, List.append_nil, List.mem_append, List.mem_singleton] at he
          rcases he with he | rfl
          · exact uPromise_neutral _ _ e he
          · simp
      | popAll =>
        simp only [Ux.step] at hu
        cases hu
        refine ⟨⟨h1, h2, h3, h4, h5, h6⟩, ul_neutral ?_ _⟩
        intro e he
        simp only [uPromises, List.mem_append, List.mem_flatten, List.mem_map, List.mem_singleton] at he
        rcases he with ⟨l, ⟨m, _, rfl⟩, he⟩ | rfl
        · exact uPromise_neutral _ _ e he
        · simp
      | shrink n =>
        simp only [Ux.step] at hu
        cases hu
        exact ⟨⟨h1, h2, h3, h4, h5, h6⟩, ul_neutral (by simp) _⟩
      | complete i ok fatal =>
        simp only [Ux.step, Option.bind_eq_bind, Option.bind_eq_some_iff] at hu
        obtain ⟨m, hm, hu⟩ := hu
        cases hu
        have hw : s.ux.writes ≠ [] := by intro h; simp [h] at hm
        simp only [Ul.allows] at hal
        have ho := fun h => h3 h (Or.inl hw)
        refine ⟨⟨h1, ?_, fun h _ => ho h, ?_, h5, h6⟩, rfl⟩
        · intro h
          have h' := ho h
          simp only [h', Bool.and_eq_true, Bool.not_eq_true', Bool.false_eq_true, if_false] at hal
          simp only [ulActs, List.filterMap_cons, List.filterMap_nil, List.foldl_cons, List.foldl_nil]
          obtain ⟨_, rfl⟩ := hal
          cases ok <;> exact h2 h
        · intro h d hd
          simp only [Ul.begins, Bool.false_eq_true, if_false] at h
          simp only [h, Bool.and_eq_true, Bool.not_eq_true', if_true] at hal
          simp only [List.mem_append, List.mem_singleton] at hd
          rcases hd with hd | rfl
          · exact h4 h d hd
          · exact hal.1
      | handler i =>
        simp only [Ux.step, Option.bind_eq_bind, Option.bind_eq_some_iff] at hu
        obtain ⟨d, hd, hu⟩ := hu
        have hdm := List.mem_of_getElem? hd
        have hdn : s.ux.dones ≠ [] := by intro h; simp [h] at hdm
        split at hu
        · cases hu
        · simp only [Ux.handler] at hu
          have hsub : ∀ x ∈ s.ux.dones.eraseIdx i, x ∈ s.ux.dones := fun x hx => List.mem_of_mem_eraseIdx hx
          split at hu
          · cases hu
            exact ⟨⟨h1, h2, fun h _ => h3 h (Or.inr hdn), fun h d hd => h4 h d (hsub d hd), h5, h6⟩, rfl⟩
          · split at hu
            · rename_i hok
              have hl : s.late = false := by
                cases hl : s.late with
                | false => rfl
                | true => have := h4 hl d hdm; simp [this] at hok
              cases hu
              refine ⟨⟨h1, h2, fun h _ => h3 h (Or.inr hdn), fun h d hd => h4 h d (hsub d hd), h5, h6⟩, ?_⟩
              rw [List.map_append, List.foldlM_append, ul_neutral (uPromise_neutral _ _)]
              simp [ulNext, hl, Ul.begins]
            · cases hu
              refine ⟨⟨h1, h2, fun h _ => h3 h (Or.inr hdn), fun h d hd => h4 h d (hsub d hd), h5, h6⟩, ?_⟩
              rw [List.map_append, List.foldlM_append, ul_neutral (uPromise_neutral _ _)]
              simp [ulNext, Ul.begins]
      | strand ccOk custom =>
        simp only [Ux.step, Ux.strand] at hu
        cases hpc : s.ux.pc <;> simp only [hpc] at hu
        case idle => cases hu
        case test => split at hu <;> cases hu <;> exact ⟨⟨h1, h2, by simpa [Ul.begins, hpc] using h3, by simpa [Ul.begins, hpc] using h4, h5, h6⟩, by simp [Ul.begins, hpc]⟩
        case cc => simp at hu; obtain ⟨rfl, rfl⟩ := hu; exact ⟨⟨h1, h2, by simpa [Ul.begins, hpc] using h3, by simpa [Ul.begins, hpc] using h4, h5, h6⟩, by simp [Ul.begins, hpc]⟩
        case clear => cases hu; exact ⟨⟨h1, h2, by simpa [Ul.begins, hpc] using h3, by simpa [Ul.begins, hpc] using h4, h5, h6⟩, by simp [Ul.begins, hpc]⟩
        case check => cases hu; exact ⟨⟨h1, h2, by simpa [Ul.begins, hpc] using h3, by simpa [Ul.begins, hpc] using h4, h5, h6⟩, by simp [Ul.begins, hpc]⟩
        case errClear => cases hu; exact ⟨⟨h1, h2, by simpa [Ul.begins, hpc] using h3, by simpa [Ul.begins, hpc] using h4, h5, h6⟩, by simp [Ul.begins, hpc]⟩
        case move =>
          have hdn : s.ux.dones = [] := by
            have := hi.owner
            rw [hpc] at this
            have h' : s.ux.sending.toNat ≤ 1 := Bool.toNat_le _
            simp only [UPc.owner] at this
            exact List.length_eq_zero_iff.mp (by omega)
          cases hq : s.ux.q.items with
          | nil =>
            simp only [Q.tryDequeue, hq] at hu
            cases hu
            exact ⟨⟨h1, h2, by simpa [Ul.begins, hpc, hq] using h3, by simpa [Ul.begins, hpc, hq] using h4, h5, h6⟩, by simp [Ul.begins, hpc, hq]⟩
          | cons m q =>
            simp only [Q.tryDequeue, hq, Bool.false_and, Bool.false_eq_true, if_false] at hu
            cases hu
            have hb : s.begins (.strand ccOk custom) = true := by simp [Ul.begins, hpc, hq]
            refine ⟨⟨h1, h2, ?_, ?_, h5, h6⟩, ?_⟩
            · simp [hb]
            · simp [hdn]
            · simp [hb, ulNext]
    · cases hs

theorem Ul.run_ok {s : Ul} {as : List UlAct} {es : List UlEv} (hr : Ul.Run Ul.init as s es) :
    s.Ok (uFatalSinceUp (ulActs as)) ∧ es.foldlM ulNext (false, false) = some (s.isOpen, s.late) := by
  generalize h0 : Ul.init = s0 at hr
  induction hr with
  | nil => subst h0; exact ⟨⟨by simp [Ul.init], by simp [Ul.init], by simp [Ul.init], by simp [Ul.init], rfl, rfl⟩, rfl⟩
  | snoc s1 s2 as a es es' hr hs ih =>
    subst h0
    have h1 := Ul.step_ok ih.1 (Ux.run_ok (Ul.run_sim hr)).1 hs
    have ha : ulActs (as ++ [a]) = ulActs as ++ ulActs [a] := by simp [ulActs]
    rw [ha, uFatalSinceUp, List.foldl_append, List.foldlM_append, ih.2]
    exact h1

/-- C78: no message that was given to the socket while it was closed is reported as sent. -/
theorem C78_no_false_success {as : List UlAct} {s : Ul} {es : List UlEv} (h : Ul.Run Ul.init as s es) : ulHonest es = true := by
  rw [ulHonest, (Ul.run_ok h).2]; rfl

/-- Opened and closed by turns: `b` is whether it is open. -/
def ulTurns (b : Bool) : List UlEv → Option Bool
  | [] => some b
  | .up :: es => if b then none else ulTurns true es
  | .down :: es => if b then ulTurns false es else none
  | .ux _ :: es => ulTurns b es

theorem ulTurns_append (b : Bool) (es fs : List UlEv) : ulTurns b (es ++ fs) = (ulTurns b es).bind (fun c => ulTurns c fs) := by
  induction es generalizing b with
  | nil => rfl
  | cons e es ih => cases e <;> cases b <;> simp [ulTurns, ih]

theorem ulTurns_ux (b : Bool) (es : List UEv) : ulTurns b (es.map UlEv.ux) = some b := by
  induction es with
  | nil => rfl
  | cons e es ih => exact ih

/-- **C78** (closing and opening): the socket is opened and closed by turns, however often close and start are called. -/
theorem C78_turns {as : List UlAct} {s : Ul} {es : List UlEv} (h : Ul.Run Ul.init as s es) : ulTurns false es = some s.isOpen := by
  suffices h1 : ulTurns false es = some s.isOpen ∧ (s.isOpen = true → s.live = true) from h1.1
  induction h with
  | nil => exact ⟨rfl, fun h => by cases h⟩
  | snoc s1 s2 as a es fs hr hs ih =>
    obtain ⟨i1, i2⟩ := ih
    rw [ulTurns_append, i1]
    cases a <;> simp only [Ul.step] at hs <;> grind [ulTurns_ux, ulTurns, Option.map_eq_some_iff]

/-- **C78** (partial: for the messages that still wait). Once the socket is open again, whatever happened before - closings, failed sends, messages accepted while it was closed -, all waiting messages are given to it, without any
further call by the user: every run of internal actions is finite, can be continued until all is quiet, and then nothing waits. -/
theorem C78_open_drains_partial {as : List UlAct} {s : Ul} {es : List UlEv} (h : Ul.Run Ul.init as s es) (ho : s.isOpen = true) :
    ∀ us u' es', Ux.Run false s.ux us u' es' → (∀ a ∈ us, UAct.Internal a) →
      us.length ≤ s.ux.work ∧ (u'.Quiet → u'.q.items = []) ∧ (¬ u'.Quiet → ∃ a u'' es'', UAct.Internal a ∧ Ux.step false u' a = some (u'', es'')) := by
  obtain ⟨hok, _⟩ := Ul.run_ok h
  exact C24_drains false _ _ _ (Ul.run_sim h) (hok.up ho).2 (hok.up ho).1 hok.stopped

/-- Non-vacuity: a message waits because the socket is not started yet; it is sent once the socket is started. -/
theorem C78_demo : ∃ as s es, Ul.Run Ul.init as s es ∧ s.isOpen = true ∧ s.ux.q.items = [] ∧ es = [.ux (.accept ⟨1, [5], none⟩ false), .up, .ux (.handOff ⟨1, [5], none⟩), .ux (.sent ⟨1, [5], none⟩)] := by
  have h : Ul.Run Ul.init [.ux (.send ⟨1, [5], none⟩ false true), .ux .loadReady, .start, .ux .loadReady, .ux .loadFlag, .ux .runPosted, .ux (.strand true false), .ux (.strand true false), .ux (.strand true false),
    .ux (.complete 0 true false), .ux (.handler 0)] _ _ := Ul.exec_run rfl
  exact ⟨_, _, _, h, by decide +kernel⟩

/-- C78 is false for messages accepted while the socket is closed: is_ready() is still true after closing (it tells whether the socket was bound, udp/socket.h:65), so the message is not kept for the next start but given to the
closed socket and fails. -/
theorem C78_fails_closed : ∃ as s es, Ul.Run Ul.init as s es ∧ s.isOpen = true ∧ s.ux.q.items = [] ∧ s.ux.cur = none ∧
    es = [.up, .down, .ux (.accept ⟨1, [5], none⟩ false), .ux (.handOff ⟨1, [5], none⟩), .ux (.sendError ⟨1, [5], none⟩), .up] := by
  have h : Ul.Run Ul.init [.start, .ux .loadReady, .ux .loadFlag, .ux .runPosted, .ux (.strand true false), .ux (.strand true false), .ux (.strand true false), .ux (.strand true false), .ux (.strand true false), .close, .onClose,
    .ux (.send ⟨1, [5], none⟩ false true), .ux .loadReady, .ux .loadFlag, .ux .runPosted, .ux (.strand true false), .ux (.strand true false), .ux (.strand true false), .ux (.complete 0 false true), .ux (.handler 0), .ux (.strand true false), .start] _ _ := Ul.exec_run rfl
  exact ⟨_, _, _, h, by decide +kernel⟩

/-- And for messages that wait when the socket is closed: after the message in flight was aborted the next one is taken and given to the closed socket (udp/socket.h:386-392), so two messages fail, while the third one is kept. -/
theorem C78_fails_waiting : ∃ as s es, Ul.Run Ul.init as s es ∧ s.live = false ∧ s.ux.q.items = [⟨1, [7], none⟩] ∧
    uOutcomes (ulSends es) = [(⟨1, [5], none⟩, false), (⟨1, [6], none⟩, false)] := by
  have h : Ul.Run Ul.init [.ux (.send ⟨1, [5], none⟩ false true), .ux (.send ⟨1, [6], none⟩ false true), .ux (.send ⟨1, [7], none⟩ false true), .ux .loadReady, .ux .loadReady, .ux .loadReady, .start,
    .ux .loadReady, .ux .loadFlag, .ux .runPosted, .ux (.strand true false), .ux (.strand true false), .ux (.strand true false), .close,
    .ux (.complete 0 false false), .ux (.handler 0), .ux (.strand true false), .ux (.strand true false), .ux (.complete 0 false true), .ux (.handler 0), .ux (.strand true false), .onClose] _ _ := Ul.exec_run rfl
  exact ⟨_, _, _, h, by decide +kernel⟩

end StAsio
