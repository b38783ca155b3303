import Verif.Model.OneClient
import Verif.Spec.OneClient
/-! C103: a server that stops listening in on_accept. -/
set_option autoImplicit false
namespace StAsio

theorem One.exec_run {num max : Nat} {as : List OneAct} : ∀ {s s' : One} {es : List AccEv}, One.exec num max s as = some (es, s') → One.Run num max s as es s' := by
  have cons : ∀ {s s1 s2 : One} {a : OneAct} {as : List OneAct} {es fs : List AccEv}, s.step num max a = some (es, s1) → One.Run num max s1 as fs s2 →
      One.Run num max s (a :: as) (es ++ fs) s2 := by
    intro s s1 s2 a as es fs h1 h2
    induction h2 with
    | nil => simpa using One.Run.snoc _ _ _ [] a [] es (.nil _) h1
    | snoc t1 t2 bs b fs gs _ hs ih => rw [← List.append_assoc]; exact .snoc _ _ _ _ _ _ _ ih hs
  induction as with
  | nil => intro s s' es h; simp only [One.exec, Option.some.injEq, Prod.mk.injEq] at h; obtain ⟨rfl, rfl⟩ := h; exact .nil _
  | cons a as ih =>
    intro s s' es h
    simp only [One.exec, Option.bind_eq_some_iff, Option.map_eq_some_iff] at h
    obtain ⟨⟨e1, s1⟩, h1, ⟨e2, s2⟩, h2, h3⟩ := h
    simp only [Prod.mk.injEq] at h3
    obtain ⟨rfl, rfl⟩ := h3
    exact cons h1 (ih h2)

theorem clients_append (es fs : List AccEv) : clients (es ++ fs) = fs.foldl sinceListen (clients es) := by
  unfold clients; rw [List.foldl_append]

theorem clients_issues (n k : Nat) : (List.replicate k (AccEv.issue true)).foldl sinceListen n = n := by
  induction k with
  | zero => rfl
  | succ k ih => rw [List.replicate_succ, List.foldl_cons]; exact ih

theorem listens_append (es fs : List AccEv) : listens (es ++ fs) = listens es + listens fs := List.countP_append ..
theorem allClients_append (es fs : List AccEv) : allClients (es ++ fs) = allClients es + allClients fs := List.countP_append ..

theorem listens_issues (k : Nat) : listens (List.replicate k (AccEv.issue true)) = 0 := by
  unfold listens; rw [List.countP_replicate]; rfl

theorem allClients_issues (k : Nat) : allClients (List.replicate k (AccEv.issue true)) = 0 := by
  unfold allClients; rw [List.countP_replicate]; rfl

/-- How many accepts are asked for, tcp/server.h:96-99. -/
abbrev accNum (num : Nat) : Nat := if num = 0 then 16 else num

structure OneInv (num : Nat) (s : One) (es : List AccEv) : Prop where
  bound : clients es + s.acc.waiting + s.acc.succ ≤ accNum num
  going : s.acc.going = 0
  check : s.acc.listening = true → s.checking = 0 ∧ clients es = 0 ∧ s.acc.waiting + s.acc.succ + s.acc.failed = accNum num ∧ s.acc.isOpen = true ∧ s.acc.aborted = 0
  closed : s.acc.listening = false → s.acc.waiting = 0
  owed : s.acc.owed = 0
  all : allClients es + accNum num ≤ accNum num * listens es + clients es ∨ (listens es = 0 ∧ allClients es = 0 ∧ clients es = 0 ∧ s.acc.waiting = 0 ∧ s.acc.succ = 0)

theorem OneInv.step {num max : Nat} {s s' : One} {es fs : List AccEv} {a : OneAct} (h : OneInv num s es) (ha : a.quiet = true) (hs : s.step num max a = some (fs, s')) :
    OneInv num s' (es ++ fs) := by
  obtain ⟨h1, h2, h3, h4, h5, h6⟩ := h
  obtain ⟨⟨li, op, wa, su, fa, ab, go, ow, sz⟩, ch⟩ := s
  simp only at h1 h2 h3 h4 h5 h6
  subst h2 h5
  have hl0 : ∀ e : AccEv, listens [e] = if e = .listen then 1 else 0 := by intro e; cases e <;> rfl
  generalize hA : accNum num = A at *
  -- events which change nothing that is counted
  have keep : ∀ (fs : List AccEv) (s' : One), clients (es ++ fs) = clients es → listens fs = 0 → allClients fs = 0 → s'.acc.going = 0 → s'.acc.owed = 0 →
      (clients es + s'.acc.waiting + s'.acc.succ ≤ A) → (s'.acc.listening = true → s'.checking = 0 ∧ clients es = 0 ∧ s'.acc.waiting + s'.acc.succ + s'.acc.failed = A ∧ s'.acc.isOpen = true ∧ s'.acc.aborted = 0) →
      (s'.acc.listening = false → s'.acc.waiting = 0) → (s'.acc.waiting + s'.acc.succ ≤ wa + su) → OneInv num s' (es ++ fs) := by
    intro fs s' e1 e2 e3 e4 e5 e6 e7 e8 e9
    refine ⟨by rw [e1, hA]; exact e6, e4, by rw [e1, hA]; exact e7, e8, e5, ?_⟩
    rw [e1, listens_append, allClients_append, e2, e3, hA]
    rcases h6 with h6 | h6
    · exact Or.inl h6
    · exact Or.inr ⟨h6.1, h6.2.1, h6.2.2.1, by omega, by omega⟩
  cases a with
  | accepted idOk =>
    simp only [One.step, Acc.stop] at hs
    split at hs
    · next hsu =>
      have main : ∀ (e : AccEv) (s' : One), (e = .added ∨ e = .refused) → s'.acc.listening = false → s'.acc.waiting = 0 → s'.acc.succ = su - 1 → s'.acc.going = 0 → s'.acc.owed = 0 →
          OneInv num s' (es ++ [.got, .stop, e]) := by
        intro e s' he e1 e2 e3 e4 e5
        have c1 : clients (es ++ [.got, .stop, e]) = clients es + 1 := by rw [clients_append]; rcases he with rfl | rfl <;> rfl
        have c2 : listens [.got, .stop, e] = 0 := by rcases he with rfl | rfl <;> rfl
        have c3 : allClients [.got, .stop, e] = 1 := by rcases he with rfl | rfl <;> rfl
        refine ⟨by rw [c1, hA]; omega, e4, (by rw [e1]; intro h; cases h), fun _ => e2, e5, ?_⟩
        rw [c1, listens_append, allClients_append, c2, c3, hA]
        rcases h6 with h6 | h6
        · left; simp only [Nat.add_zero]; omega
        · omega
      by_cases hm : idOk = true ∧ sz < max
      · rw [if_pos hm] at hs; cases hs; exact main _ _ (Or.inl rfl) rfl rfl rfl rfl rfl
      · rw [if_neg hm] at hs; cases hs; exact main _ _ (Or.inr rfl) rfl rfl rfl rfl rfl
    · cases hs
  | check =>
    simp only [One.step] at hs
    split at hs
    · cases hs
      cases li with
      | true => have := (h3 rfl).1; omega
      | false => exact keep [] _ (by simp) rfl rfl rfl rfl (by simpa using h1) (by simp) (by simpa using h4) (Nat.le_refl _)
    · cases hs
  | base b =>
    cases b with
    | startListen => cases ha
    | startListenQuiet bo =>
      simp only [One.step, Acc.step, Acc.startListen] at hs
      split at hs
      · next hch =>
        split at hs
        · next hq =>
          cases li with
          | true =>
            simp only [if_true, Option.map_some, Option.some.injEq, Prod.mk.injEq] at hs
            obtain ⟨rfl, rfl⟩ := hs
            exact keep [] _ (by simp) rfl rfl rfl rfl h1 h3 h4 (Nat.le_refl _)
          | false =>
            simp only [Bool.false_eq_true, if_false, or_false] at hs hq hch
            cases bo with
            | false =>
              simp only [if_true, Option.map_some, Option.some.injEq, Prod.mk.injEq] at hs
              obtain ⟨rfl, rfl⟩ := hs
              exact keep [] _ (by simp) rfl rfl rfl rfl h1 (by simp) (fun _ => h4 rfl) (Nat.le_refl _)
            | true =>
              simp only [Bool.true_eq_false, if_false, Option.map_some, Option.some.injEq, Prod.mk.injEq, Nat.min_self] at hs
              obtain ⟨rfl, rfl⟩ := hs
              have hA' : (if num = 0 then 16 else num) = A := hA
              have c1 : ∀ k, clients (es ++ .listen :: List.replicate k (.issue true)) = 0 := by
                intro k; rw [clients_append, List.foldl_cons, clients_issues]; rfl
              have c2 : ∀ k, listens (.listen :: List.replicate k (.issue true)) = 1 := by
                intro k
                have := listens_append [.listen] (List.replicate k (.issue true))
                rw [List.singleton_append, listens_issues] at this
                rw [this]; rfl
              have c3 : ∀ k, allClients (.listen :: List.replicate k (.issue true)) = 0 := by
                intro k
                have := allClients_append [.listen] (List.replicate k (.issue true))
                rw [List.singleton_append, allClients_issues] at this
                rw [this]; rfl
              refine ⟨?_, rfl, ?_, by simp, rfl, ?_⟩
              · rw [c1, hA', hA]; simp only; omega
              · intro _; rw [c1, hA', hA]; simp only; exact ⟨hch, trivial, by omega, trivial, by omega⟩
              · left
                rw [c1, listens_append, allClients_append, c2, c3, hA, Nat.mul_succ]
                rcases h6 with h6 | h6
                · omega
                · rw [h6.2.1]; omega
        · cases hs
      · cases hs
    | stopListen =>
      simp only [One.step, Acc.step, Acc.stop, Option.map_some, Option.some.injEq, Prod.mk.injEq] at hs
      obtain ⟨rfl, rfl⟩ := hs
      exact keep [.stop] _ (by rw [clients_append]; rfl) rfl rfl rfl rfl (by simp only; omega) (by simp) (fun _ => rfl) (by simp only; omega)
    | connect =>
      simp only [One.step, Acc.step] at hs
      split at hs
      · next hc =>
        cases hs
        refine keep [] _ (by simp) rfl rfl rfl rfl (by simp only; omega) ?_ (fun e => by have := h4 e; simp only at this ⊢; omega) (by simp only; omega)
        intro e; have := h3 e; exact ⟨this.1, this.2.1, by simp only; omega, this.2.2.2.1, this.2.2.2.2⟩
      · cases hs
    | fail =>
      simp only [One.step, Acc.step] at hs
      split at hs
      · next hc =>
        cases hs
        refine keep [] _ (by simp) rfl rfl rfl rfl (by simp only; omega) ?_ (fun e => by have := h4 e; simp only at this ⊢; omega) (by simp only; omega)
        intro e; have := h3 e; exact ⟨this.1, this.2.1, by simp only; omega, this.2.2.2.1, this.2.2.2.2⟩
      · cases hs
    | handleOk => cases hs
    | handleErr a ans =>
      simp only [One.step, Acc.step, Acc.stop] at hs
      split at hs
      · next he =>
        subst he
        split at hs
        · cases a with
          | true =>
            simp only [if_true, Option.map_some, Option.some.injEq, Prod.mk.injEq] at hs
            obtain ⟨rfl, rfl⟩ := hs
            refine keep [.gotErr true] _ (by rw [clients_append]; rfl) rfl rfl rfl rfl h1 ?_ h4 (Nat.le_refl _)
            intro e; have := h3 e; exact ⟨this.1, this.2.1, this.2.2.1, this.2.2.2.1, by simp only; omega⟩
          | false =>
            simp only [Bool.false_eq_true, if_false, Option.map_some, Option.some.injEq, Prod.mk.injEq] at hs
            obtain ⟨rfl, rfl⟩ := hs
            exact keep [.gotErr false, .stop] _ (by rw [clients_append]; rfl) rfl rfl rfl rfl (by simp only; omega) (by simp) (fun _ => rfl) (by simp only; omega)
        · cases hs
      · cases hs
    | next => simp [One.step, Acc.step] at hs
    | nextFails => simp [One.step, Acc.step] at hs
    | userNext => cases hs
    | leave =>
      simp only [One.step, Acc.step] at hs
      split at hs
      · cases hs
        exact keep [.left] _ (by rw [clients_append]; rfl) rfl rfl rfl rfl h1 h3 h4 (Nat.le_refl _)
      · cases hs

theorem One.inv_run {num max : Nat} {as : List OneAct} {es : List AccEv} {s : One} (h : One.Run num max One.init as es s) (ha : ∀ a ∈ as, a.quiet = true) : OneInv num s es := by
  generalize h0 : One.init = s0 at h
  induction h with
  | nil =>
    subst h0
    exact ⟨Nat.zero_le _, rfl, fun h => (by cases h), fun _ => rfl, rfl, Or.inr ⟨rfl, rfl, rfl, rfl, rfl⟩⟩
  | snoc s1 s2 as a es fs _ hs ih => exact (ih (fun b hb => ha b (by simp [hb]))).step (ha a (by simp)) hs

/-- **C103**: a server whose on_accept calls stop_listen accepts, each time it listens, at most as many clients as async_accept_num says, in every interleaving of accepts, failures,
handlers in any number of threads and calls of stop_listen; with async_accept_num 1 it is at most one client. Each time: `clients` counts from the last start_listen. -/
theorem C103_at_most (num max : Nat) (hn : 0 < num) (as : List OneAct) (es : List AccEv) (s : One) (h : One.Run num max One.init as es s) (ha : ∀ a ∈ as, a.quiet = true) :
    clients es ≤ num ∧ allClients es ≤ num * listens es := by
  have inv := One.inv_run h ha
  have e : accNum num = num := by unfold accNum; rw [if_neg (by omega)]
  have h1 := inv.bound
  have h6 := inv.all
  rw [e] at h1 h6
  refine ⟨by omega, ?_⟩
  rcases h6 with h6 | h6 <;> omega

/-- **C103**: no accept is ever issued by a handler: the number of clients does not grow again. -/
theorem C103_no_further_accept (num max : Nat) (as : List OneAct) (es : List AccEv) (s : One) (h : One.Run num max One.init as es s) (ha : ∀ a ∈ as, a.quiet = true) :
    s.step num max (.base .next) = none ∧ (0 < clients es → s.acc.listening = false ∧ s.acc.waiting = 0) := by
  have inv := One.inv_run h ha
  refine ⟨by simp [One.step, Acc.step, inv.going], ?_⟩
  intro hc
  have hl : s.acc.listening = false := by
    cases hl : s.acc.listening with
    | false => rfl
    | true => have := (inv.check hl).2.1; omega
  exact ⟨hl, inv.closed hl⟩

/-- **C103**: the one client gets in. While the server listens and no accept has failed, a client can connect (or has connected already), and when the handlers have run it is the only one that was accepted,
it is in the pool if the pool has room, and the server does not listen any more. -/
theorem C103_gets_in (max : Nat) (as : List OneAct) (es : List AccEv) (s : One) (h : One.Run 1 max One.init as es s) (ha : ∀ a ∈ as, a.quiet = true)
    (hl : s.acc.listening = true) (hf : s.acc.failed = 0) :
    ∃ bs s', (bs = [.base .connect] ∨ bs = []) ∧ One.exec 1 max s (bs ++ [.accepted true, .check]) =
      some ([.got, .stop, if s.acc.size < max then .added else .refused], s') ∧ s'.acc.listening = false ∧ s'.acc.isOpen = false ∧
      s'.acc.waiting = 0 ∧ s'.acc.succ = 0 ∧ s'.acc.failed = 0 ∧ s'.acc.aborted = 0 ∧ s'.acc.going = 0 ∧ s'.checking = 0 ∧
      clients (es ++ [.got, .stop, if s.acc.size < max then .added else .refused]) = 1 := by
  have inv := One.inv_run h ha
  obtain ⟨h1, h2, h3, h4, h5⟩ := inv.check hl
  have hg := inv.going
  have hc : ∀ e, clients (es ++ [.got, .stop, if s.acc.size < max then .added else .refused]) = e ↔ clients es + 1 = e := by
    intro e
    rw [clients_append]
    split <;> rfl
  obtain ⟨⟨li, op, wa, su, fa, ab, go, ow, sz⟩, ch⟩ := s
  simp only at hl hf h1 h2 h3 h4 h5 hg hc ⊢
  subst hl hf h1 h4 h5 hg
  have e : accNum 1 = 1 := rfl
  rw [e] at h3
  have hcase : (wa = 1 ∧ su = 0) ∨ (wa = 0 ∧ su = 1) := by omega
  rcases hcase with ⟨rfl, rfl⟩ | ⟨rfl, rfl⟩
  · refine ⟨[.base .connect], ⟨⟨false, false, 0, 0, 0, 0, 0, ow, if sz < max then sz + 1 else sz⟩, 0⟩, Or.inl rfl, ?_, rfl, rfl, rfl, rfl, rfl, rfl, rfl, rfl, (hc 1).mpr (by omega)⟩
    by_cases hm : sz < max <;> simp [One.exec, One.step, Acc.step, Acc.stop, hm]
  · refine ⟨[], ⟨⟨false, false, 0, 0, 0, 0, 0, ow, if sz < max then sz + 1 else sz⟩, 0⟩, Or.inr rfl, ?_, rfl, rfl, rfl, rfl, rfl, rfl, rfl, rfl, (hc 1).mpr (by omega)⟩
    by_cases hm : sz < max <;> simp [One.exec, One.step, Acc.step, Acc.stop, hm]

/-- **C103** is false if start_listen is called again while the handler of the client is still under way: between its stop_listen and its is_listening(). The handler then issues one accept more, and two
clients get in. -/
theorem C103_fails_restart : ∃ as es s, One.Run 1 5 One.init as es s ∧ clients es = 2 ∧ inPool es = 3 := by
  have e : (One.exec 1 5 One.init [.base (.startListenQuiet true), .base .connect, .accepted true, .base (.startListen true true 1), .check, .base .next, .base .connect, .base .connect, .accepted true,
    .accepted true]).map (fun r => r.1) = some [.listen, .issue true, .got, .stop, .added, .listen, .issue true, .issue true, .got, .stop, .added, .got, .stop, .added] := by decide
  rw [Option.map_eq_some_iff] at e
  obtain ⟨⟨es, s⟩, e1, rfl⟩ := e
  exact ⟨_, _, s, One.exec_run e1, by decide, by decide⟩

/-- Non-vacuity: two clients try to get in, one does; it leaves, the server is started again, another one gets in. -/
theorem C103_demo : ∃ s, One.exec 1 5 One.init [.base (.startListenQuiet true), .base .connect, .accepted true, .check, .base .leave, .base (.startListenQuiet true), .base .connect, .accepted true, .check] =
      some ([.listen, .issue true, .got, .stop, .added, .left, .listen, .issue true, .got, .stop, .added], s) ∧
    One.exec 1 5 One.init [.base (.startListenQuiet true), .base .connect, .base .connect] = none ∧
    clients [.listen, .issue true, .got, .stop, .added, .left, .listen, .issue true, .got, .stop, .added] = 1 := by
  have e : ((One.exec 1 5 One.init [.base (.startListenQuiet true), .base .connect, .accepted true, .check, .base .leave, .base (.startListenQuiet true), .base .connect, .accepted true, .check]).map
      (fun r => r.1)) = some [.listen, .issue true, .got, .stop, .added, .left, .listen, .issue true, .got, .stop, .added] := by decide
  rw [Option.map_eq_some_iff] at e
  obtain ⟨⟨es, s⟩, e1, rfl⟩ := e
  exact ⟨s, e1, by decide, by decide⟩

/-- Non-vacuity with async_accept_num 2: two clients may get in. -/
theorem C103_demo_two : (One.exec 2 5 One.init [.base (.startListenQuiet true), .base .connect, .base .connect, .accepted true, .check, .accepted true, .check]).map (fun r => (r.1, clients r.1)) =
    some ([.listen, .issue true, .issue true, .got, .stop, .added, .got, .stop, .added], 2) := by decide

end StAsio
