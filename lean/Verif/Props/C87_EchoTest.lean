import Verif.Lemmas.EchoTest
/-!
# C87: the echo test

`Et.Run env p (Et.init env) as s es`: tests are started one after the other over `env.n` links; the actions `as` of the main thread, the sending threads, the network, the server and the client's receiving lead to `s`; `es` is what happened.
`EtEv.run` (Spec/EchoTest.lean) says what must come back.
-/
set_option autoImplicit false
namespace StAsio

/-- Messages on their way over a link, the next to arrive first. -/
def EtLink.coming (l : EtLink) : List EtMsg := l.hand.drop (if l.half then 1 else 0) ++ (l.down ++ (l.back ++ (l.srv ++ (l.up ++ l.out))))

def EtLink.Fine (l : EtLink) : Prop := l.half = true → l.hand ≠ []

theorem EtLink.step_fine {env : EtEnv} {i : Nat} {chk : Bool} {l l' : EtLink} {a : EtLAct} {es : List EtEv} (h : l.Fine) (hs : l.step env i chk a = some (l', es)) : l'.Fine := by
  cases a <;> simp only [EtLink.step] at hs <;> (repeat' split at hs) <;> (try cases hs) <;> simp_all [EtLink.Fine]

theorem EtLink.step_coming {env : EtEnv} {i : Nat} {chk : Bool} {l l' : EtLink} {a : EtLAct} {es : List EtEv} (h : l.Fine) (hs : l.step env i chk a = some (l', es)) :
    (l'.coming = l.coming ∧ l'.bytes = l.bytes ∧ (es = [] ∨ es = [.complaint i])) ∨ ∃ m, es = [.arrived i m.seq] ∧ l.coming = m :: l'.coming ∧ l'.bytes = l.bytes + m.len := by
  cases a with
  | xmit =>
    simp only [EtLink.step] at hs
    (repeat' split at hs) <;> (try cases hs)
    left; rename_i h1 _; simp [EtLink.coming, h1]
  | srvRead k =>
    simp only [EtLink.step] at hs
    (repeat' split at hs) <;> (try cases hs)
    left; refine ⟨?_, rfl, .inl rfl⟩
    simp only [EtLink.coming, List.append_assoc]
    rw [← List.append_assoc (l.up.take k), List.take_append_drop]
  | srvHandle =>
    simp only [EtLink.step] at hs
    (repeat' split at hs) <;> (try cases hs)
    left; refine ⟨?_, rfl, .inl rfl⟩
    simp only [EtLink.coming, List.append_assoc]
    rw [← List.append_assoc (l.srv.take 10), List.take_append_drop]
  | srvXmit =>
    simp only [EtLink.step] at hs
    (repeat' split at hs) <;> (try cases hs)
    left; rename_i h1 _; simp [EtLink.coming, h1]
  | cliRead k =>
    simp only [EtLink.step] at hs
    (repeat' split at hs) <;> (try cases hs)
    rename_i h1
    have h2 : l.half = false := by cases hh : l.half with
      | false => rfl
      | true => exact absurd h1.1 (h hh)
    left; refine ⟨?_, rfl, .inl rfl⟩
    simp only [EtLink.coming, h1.1, h2]
    simp only [Bool.false_eq_true, if_false, List.drop_zero, List.nil_append]
    rw [← List.append_assoc, List.take_append_drop]
  | add =>
    simp only [EtLink.step] at hs
    (repeat' split at hs) <;> (try cases hs)
    rename_i m r h1 h2
    right; refine ⟨m, rfl, ?_, rfl⟩
    simp [EtLink.coming, h1, h2]
  | check =>
    simp only [EtLink.step] at hs
    (repeat' split at hs) <;> (try cases hs) <;> left <;> refine ⟨?_, rfl, ?_⟩ <;> simp_all [EtLink.coming]

/-- No test is going on; the first `i` links are cleared. -/
structure Et.Rest (s : Et) (i : Nat) : Prop where
  coming : ∀ l ∈ s.links, l.coming = []
  todo : ∀ td ∈ s.todo, td = []
  clear : ∀ (j : Nat) (l : EtLink), j < i → s.links[j]? = some l → l.bytes = 0

structure Et.Going (env : EtEnv) (s : Et) (t : EtTest) (i acc : Nat) (f : Nat → List Nat) (own : Nat → Nat) : Prop where
  lenEq : s.len = t.len
  valid : t.valid env.max = true
  iLe : i ≤ env.n
  accLe : acc ≤ ((s.links.take i).map (·.bytes)).sum
  line : ∀ (j : Nat) (l : EtLink), s.links[j]? = some l → l.coming.map (·.seq) ++ pendOf own s.todo j = f j
  sizes : ∀ (j : Nat) (l : EtLink), s.links[j]? = some l → ∀ m ∈ l.coming, m.len = t.len
  count : ∀ (j : Nat) (l : EtLink), s.links[j]? = some l → l.bytes + t.len * (f j).length = t.len * (t.expect env.n env.max j).length
  owner : ∀ (j i k : Nat), (i, k) ∈ s.todo.getD j [] → own i = j ∧ i < env.n

def Et.Phase (env : EtEnv) (s : Et) (st : Option (Nat → List Nat)) : Prop := match s.main with
  | .idle => st = none ∧ s.Rest 0
  | .clearing t i => st = none ∧ t.valid env.max = true ∧ i ≤ env.n ∧ s.Rest i
  | .going t i acc => ∃ f own, st = some f ∧ s.Going env t i acc f own

structure Et.Inv (env : EtEnv) (s : Et) (st : Option (Nat → List Nat)) : Prop where
  len : s.links.length = env.n
  fine : ∀ l ∈ s.links, l.Fine
  phase : s.Phase env st

theorem Et.inv_init (env : EtEnv) : (Et.init env).Inv env none := by
  refine ⟨by simp [Et.init], ?_, ?_⟩
  · intro l hl
    have := List.eq_of_mem_replicate hl
    subst this; simp [EtLink.Fine, EtLink.init]
  · refine ⟨rfl, ?_, by simp [Et.init], by intro j l hj; omega⟩
    intro l hl
    have := List.eq_of_mem_replicate hl
    subst this; rfl

theorem getElem?_set_some {α : Type} {ls : List α} {i j : Nat} {x y : α} (h : (ls.set i x)[j]? = some y) : (i = j ∧ y = x) ∨ (i ≠ j ∧ ls[j]? = some y) := by
  by_cases hij : i = j
  · subst hij
    rw [List.getElem?_set] at h
    simp only [if_pos] at h
    split at h
    · cases h; exact .inl ⟨rfl, rfl⟩
    · cases h
  · rw [List.getElem?_set_ne hij] at h; exact .inr ⟨hij, h⟩

theorem mem_set_cases {α : Type} {ls : List α} {i : Nat} {x y : α} (h : y ∈ ls.set i x) : y = x ∨ y ∈ ls := by
  obtain ⟨j, hj⟩ := List.mem_iff_getElem?.mp h
  rcases getElem?_set_some hj with h | h
  · exact .inl h.2
  · exact .inr (List.mem_of_getElem? h.2)

/-- A step of a link. -/
theorem Et.inv_link {env : EtEnv} {s s' : Et} {st : Option (Nat → List Nat)} {i : Nat} {a : EtLAct} {es : List EtEv} (h : s.Inv env st) (hs : s.step env (.link i a) = some (s', es)) :
    ∃ st', EtEv.run env.n env.max st es = some st' ∧ s'.Inv env st' := by
  simp only [Et.step] at hs
  cases hl : s.links[i]? with
  | none => simp [hl] at hs
  | some l =>
    simp only [hl] at hs
    cases hst : l.step env i s.check a with
    | none => simp [hst] at hs
    | some r =>
      obtain ⟨l', es1⟩ := r
      simp only [hst, Option.map_some, Option.some.injEq, Prod.mk.injEq] at hs
      obtain ⟨rfl, rfl⟩ := hs
      have hfine := h.fine l (List.mem_of_getElem? hl)
      have hfine' : ∀ x ∈ s.links.set i l', x.Fine := by
        intro x hx
        rcases mem_set_cases hx with rfl | hx
        · exact EtLink.step_fine hfine hst
        · exact h.fine x hx
      have hlen' : (s.links.set i l').length = env.n := by rw [List.length_set]; exact h.len
      rcases EtLink.step_coming hfine hst with ⟨hc, hb, he⟩ | ⟨m, rfl, hc, hb⟩
      · refine ⟨st, by rcases he with rfl | rfl <;> cases st <;> rfl, hlen', hfine', ?_⟩
        have hph := h.phase
        have hrest : ∀ k, s.Rest k → Et.Rest { s with links := s.links.set i l' } k := by
          intro k hr
          refine ⟨?_, hr.todo, ?_⟩
          · intro x hx
            rcases mem_set_cases hx with rfl | hx
            · rw [hc]; exact hr.coming l (List.mem_of_getElem? hl)
            · exact hr.coming x hx
          · intro j x hj hx
            rcases getElem?_set_some hx with ⟨rfl, rfl⟩ | ⟨_, hx⟩
            · rw [hb]; exact hr.clear i l hj hl
            · exact hr.clear j x hj hx
        simp only [Et.Phase] at hph ⊢
        split at hph
        · exact ⟨hph.1, hrest _ hph.2⟩
        · exact ⟨hph.1, hph.2.1, hph.2.2.1, hrest _ hph.2.2.2⟩
        · obtain ⟨f, own, rfl, hg⟩ := hph
          refine ⟨f, own, rfl, hg.lenEq, hg.valid, hg.iLe, ?_, ?_, ?_, ?_, hg.owner⟩
          · refine Nat.le_trans hg.accLe (bytes_take_set ?_)
            intro x hx; rw [hl] at hx; cases hx; omega
          · intro j x hx
            rcases getElem?_set_some hx with ⟨rfl, rfl⟩ | ⟨_, hx⟩
            · rw [hc]; exact hg.line i l hl
            · exact hg.line j x hx
          · intro j x hx
            rcases getElem?_set_some hx with ⟨rfl, rfl⟩ | ⟨_, hx⟩
            · rw [hc]; exact hg.sizes i l hl
            · exact hg.sizes j x hx
          · intro j x hx
            rcases getElem?_set_some hx with ⟨rfl, rfl⟩ | ⟨_, hx⟩
            · rw [hb]; exact hg.count i l hl
            · exact hg.count j x hx
      · have hph := h.phase
        simp only [Et.Phase] at hph
        split at hph
        · have := hph.2.coming l (List.mem_of_getElem? hl); rw [hc] at this; cases this
        · have := hph.2.2.2.coming l (List.mem_of_getElem? hl); rw [hc] at this; cases this
        · rename_i t i0 acc hmain
          obtain ⟨f, own, rfl, hg⟩ := hph
          have hfi := hg.line i l hl
          rw [hc, List.map_cons, List.cons_append] at hfi
          refine ⟨some (fun j => if j = i then l'.coming.map (·.seq) ++ pendOf own s.todo i else f j), ?_, hlen', hfine', ?_⟩
          · simp [EtEv.run, EtEv.next, ← hfi]
          · simp only [Et.Phase, hmain]
            refine ⟨_, own, rfl, hg.lenEq, hg.valid, hg.iLe, ?_, ?_, ?_, ?_, hg.owner⟩
            · refine Nat.le_trans hg.accLe (bytes_take_set ?_)
              intro x hx; rw [hl] at hx; cases hx; omega
            · intro j x hx
              rcases getElem?_set_some hx with ⟨rfl, rfl⟩ | ⟨hj, hx⟩
              · simp
              · rw [if_neg (fun h => hj h.symm)]; exact hg.line j x hx
            · intro j x hx
              rcases getElem?_set_some hx with ⟨rfl, rfl⟩ | ⟨hj, hx⟩
              · intro y hy; exact hg.sizes i l hl y (by rw [hc]; exact List.mem_cons_of_mem _ hy)
              · exact hg.sizes j x hx
            · intro j x hx
              rcases getElem?_set_some hx with ⟨rfl, rfl⟩ | ⟨hj, hx⟩
              · have h1 := hg.count i l hl
                have h2 := hg.sizes i l hl m (by rw [hc]; exact List.mem_cons_self)
                rw [← hfi, List.length_cons, Nat.mul_succ] at h1
                rw [if_pos rfl, hb, h2]; omega
              · rw [if_neg (fun h => hj h.symm)]; exact hg.count j x hx

theorem pendOf_set {own : Nat → Nat} {td : List (List (Nat × Nat))} {j i k : Nat} {r : List (Nat × Nat)} (hj : td[j]? = some ((i, k) :: r)) (ho : own i = j) :
    pendOf own td i = k :: pendOf own (td.set j r) i ∧ ∀ x, x ≠ i → pendOf own (td.set j r) x = pendOf own td x := by
  have hlt : j < td.length := by
    rcases Nat.lt_or_ge j td.length with h | h
    · exact h
    · rw [List.getElem?_eq_none h] at hj; cases hj
  constructor
  · have h1 : td.getD j [] = (i, k) :: r := by rw [List.getD_eq_getElem?_getD, hj]; rfl
    have h2 : (td.set j r).getD j [] = r := by rw [List.getD_eq_getElem?_getD, List.getElem?_set]; simp [hlt]
    simp only [pendOf, ho, h1, h2]; simp
  · intro x hx
    simp only [pendOf, List.getD_eq_getElem?_getD, List.getElem?_set]
    by_cases h : j = own x
    · rw [if_pos h, if_pos hlt, ← h, hj]
      have : ¬ i = x := fun h => hx h.symm
      simp only [Option.getD_some, List.filter_cons, this, decide_false, Bool.false_eq_true, if_false]
    · rw [if_neg h]

theorem Et.inv_send {env : EtEnv} {s s' : Et} {st : Option (Nat → List Nat)} {j : Nat} {es : List EtEv} (h : s.Inv env st) (hs : s.step env (.send j) = some (s', es)) :
    ∃ st', EtEv.run env.n env.max st es = some st' ∧ s'.Inv env st' := by
  simp only [Et.step] at hs
  (repeat' split at hs) <;> (try cases hs)
  rename_i i k r htd _ l hl hroom
  have htm : ((i, k) :: r) ∈ s.todo := List.mem_of_getElem? htd
  have hc : EtLink.coming { l with out := l.out ++ [⟨k, s.len⟩] } = l.coming ++ [⟨k, s.len⟩] := by simp [EtLink.coming]
  have hph := h.phase
  simp only [Et.Phase] at hph
  split at hph
  · have := hph.2.todo _ htm; cases this
  · have := hph.2.2.2.todo _ htm; cases this
  · rename_i t i0 acc hmain
    obtain ⟨f, own, rfl, hg⟩ := hph
    have hgd : s.todo.getD j [] = (i, k) :: r := by rw [List.getD_eq_getElem?_getD, htd]; rfl
    have ho := hg.owner j i k (by rw [hgd]; exact List.mem_cons_self)
    have hp := pendOf_set htd ho.1
    refine ⟨some f, rfl, by rw [List.length_set]; exact h.len, ?_, ?_⟩
    · intro x hx
      rcases mem_set_cases hx with rfl | hx
      · exact h.fine l (List.mem_of_getElem? hl)
      · exact h.fine x hx
    · simp only [Et.Phase, hmain]
      refine ⟨f, own, rfl, hg.lenEq, hg.valid, hg.iLe, ?_, ?_, ?_, ?_, ?_⟩
      · refine Nat.le_trans hg.accLe (bytes_take_set ?_)
        intro x hx; rw [hl] at hx; cases hx; exact Nat.le_refl _
      · intro y x hx
        rcases getElem?_set_some hx with ⟨rfl, rfl⟩ | ⟨hj, hx⟩
        · have := hg.line i l hl
          rw [hc]; rw [hp.1] at this; simpa using this
        · rw [hp.2 _ (fun h => hj h.symm)]; exact hg.line y x hx
      · intro y x hx
        rcases getElem?_set_some hx with ⟨rfl, rfl⟩ | ⟨hj, hx⟩
        · rw [hc]
          intro m hm
          rcases List.mem_append.mp hm with hm | hm
          · exact hg.sizes i l hl m hm
          · rw [List.mem_singleton.mp hm]; exact hg.lenEq
        · exact hg.sizes y x hx
      · intro y x hx
        rcases getElem?_set_some hx with ⟨rfl, rfl⟩ | ⟨hj, hx⟩
        · exact hg.count i l hl
        · exact hg.count y x hx
      · intro y a b hm
        refine hg.owner y a b ?_
        by_cases hy : j = y
        · subst hy
          rw [hgd]
          rw [List.getD_eq_getElem?_getD, List.getElem?_set, if_pos rfl] at hm
          split at hm
          · exact List.mem_cons_of_mem _ hm
          · cases hm
        · rw [List.getD_eq_getElem?_getD, List.getElem?_set_ne hy, ← List.getD_eq_getElem?_getD] at hm; exact hm

theorem EtTest.reached_iff {n acc : Nat} {t : EtTest} (h : 0 < t.total n) : t.reached n acc = true ↔ t.total n ≤ acc := by
  cases t with
  | conc a b c =>
    simp only [EtTest.reached, Bool.not_eq_true', decide_eq_false_iff_not, Nat.not_lt]
    rw [Nat.le_div_iff_mul_le h]; omega
  | rand a b => simp only [EtTest.reached, Bool.not_eq_true', decide_eq_false_iff_not, Nat.not_lt]

/-- All bytes have been counted: nothing is left. -/
theorem Et.Going.over {env : EtEnv} (he : env.Ok) {s : Et} {t : EtTest} {acc : Nat} {f : Nat → List Nat} {own : Nat → Nat} (hlen : s.links.length = env.n) (hg : s.Going env t env.n acc f own) (ht : t.total env.n ≤ acc) : ∀ j, j < env.n → f j = [] := by
  have h1 := bytes_sum hg.count
  have h2 := hg.accLe
  have h3 := total_ok he hg.valid
  rw [List.take_of_length_le (by omega)] at h2
  rw [hlen, h3.2.2] at h1
  intro j hj
  have h4 := sum_range_le (g := fun j => (f j).length) hj
  have h5 : ((List.range env.n).map fun j => (f j).length).sum = 0 := by
    rcases Nat.eq_zero_or_pos ((List.range env.n).map fun j => (f j).length).sum with h | h
    · exact h
    · have := Nat.mul_pos h3.1 h; omega
  have : (f j).length = 0 := by omega
  exact List.length_eq_zero_iff.mp this

theorem Et.inv_step {env : EtEnv} (he : env.Ok) {s s' : Et} {st : Option (Nat → List Nat)} {a : EtAct} {es : List EtEv} (h : s.Inv env st) (hs : s.step env a = some (s', es)) :
    ∃ st', EtEv.run env.n env.max st es = some st' ∧ s'.Inv env st' := by
  cases a with
  | link i a => exact Et.inv_link h hs
  | send j => exact Et.inv_send h hs
  | begin t =>
    simp only [Et.step] at hs
    split at hs <;> cases hs
    rename_i hm
    have hph := h.phase
    simp only [Et.Phase, hm.1] at hph
    exact ⟨st, rfl, h.len, h.fine, by simp only [Et.Phase]; exact ⟨hph.1, hm.2, Nat.zero_le _, ⟨hph.2.coming, hph.2.todo, by intro j l hj; omega⟩⟩⟩
  | clear =>
    simp only [Et.step] at hs
    (repeat' split at hs) <;> (try cases hs)
    rename_i t i hm _ l hl
    have hph := h.phase
    simp only [Et.Phase, hm] at hph
    have hlt : i < env.n := by
      rw [← h.len]
      rcases Nat.lt_or_ge i s.links.length with h | h
      · exact h
      · rw [List.getElem?_eq_none h] at hl; cases hl
    refine ⟨st, rfl, by rw [List.length_set]; exact h.len, ?_, ?_⟩
    · intro x hx
      rcases mem_set_cases hx with rfl | hx
      · exact h.fine l (List.mem_of_getElem? hl)
      · exact h.fine x hx
    · simp only [Et.Phase]
      refine ⟨hph.1, hph.2.1, hlt, ?_, hph.2.2.2.todo, ?_⟩
      · intro x hx
        rcases mem_set_cases hx with rfl | hx
        · exact hph.2.2.2.coming l (List.mem_of_getElem? hl)
        · exact hph.2.2.2.coming x hx
      · intro j x hj hx
        rcases getElem?_set_some hx with ⟨rfl, rfl⟩ | ⟨hne, hx⟩
        · rfl
        · exact hph.2.2.2.clear j x (by omega) hx
  | launch =>
    simp only [Et.step] at hs
    split at hs
    · rename_i t i hm
      split at hs
      · rename_i hi
        have hph := h.phase
        simp only [Et.Phase, hm] at hph
        obtain ⟨td, own, h1, h2, h3⟩ := todo_ok he hph.2.1
        simp only [h1, Option.map_some, Option.some.injEq, Prod.mk.injEq] at hs
        obtain ⟨rfl, rfl⟩ := hs
        refine ⟨some (t.expect env.n env.max), by rw [hph.1]; rfl, h.len, h.fine, ?_⟩
        simp only [Et.Phase]
        refine ⟨_, own, rfl, rfl, hph.2.1, Nat.zero_le _, Nat.zero_le _, ?_, ?_, ?_, h2⟩
        · intro j l hl
          rw [hph.2.2.2.coming l (List.mem_of_getElem? hl)]
          have hj : j < env.n := by
            rw [← h.len]
            rcases Nat.lt_or_ge j s.links.length with h | h
            · exact h
            · simp only at hl; rw [List.getElem?_eq_none h] at hl; cases hl
          exact h3 j hj
        · intro j l hl m hmem
          rw [hph.2.2.2.coming l (List.mem_of_getElem? hl)] at hmem; cases hmem
        · intro j l hl
          have hj : j < i := by
            rw [hi, ← h.len]
            rcases Nat.lt_or_ge j s.links.length with h | h
            · exact h
            · simp only at hl; rw [List.getElem?_eq_none h] at hl; cases hl
          rw [hph.2.2.2.clear j l hj hl]; omega
      · cases hs
    · cases hs
  | poll =>
    simp only [Et.step] at hs
    split at hs
    · rename_i t i acc hm
      split at hs
      · cases hl : s.links[i]? with
        | none => simp [hl] at hs
        | some l =>
          simp only [hl, Option.map_some, Option.some.injEq, Prod.mk.injEq] at hs
          obtain ⟨rfl, rfl⟩ := hs
          have hlt : i < env.n := by
            rw [← h.len]
            rcases Nat.lt_or_ge i s.links.length with h | h
            · exact h
            · rw [List.getElem?_eq_none h] at hl; cases hl
          have hph := h.phase
          simp only [Et.Phase, hm] at hph
          obtain ⟨f, own, rfl, hg⟩ := hph
          refine ⟨some f, rfl, h.len, h.fine, ?_⟩
          simp only [Et.Phase]
          refine ⟨f, own, rfl, hg.lenEq, hg.valid, hlt, ?_, hg.line, hg.sizes, hg.count, hg.owner⟩
          have := hg.accLe
          simp only [List.take_add_one, hl, Option.toList_some, List.map_append, List.sum_append, List.map_cons, List.map_nil, List.sum_cons, List.sum_nil]
          omega
      · cases hs
    · cases hs
  | verdict =>
    simp only [Et.step] at hs
    split at hs
    · rename_i t i acc hm
      split at hs
      · rename_i hi
        subst hi
        have hph := h.phase
        simp only [Et.Phase, hm] at hph
        obtain ⟨f, own, rfl, hg⟩ := hph
        have htot := total_ok he hg.valid
        split at hs
        · rename_i hre
          split at hs <;> cases hs
          rename_i htd
          have hover := hg.over he h.len ((EtTest.reached_iff htot.2.1).mp hre)
          refine ⟨none, ?_, h.len, h.fine, ?_⟩
          · have : (List.range env.n).all (fun i => (f i).isEmpty) = true := by
              rw [List.all_eq_true]
              intro j hj
              simp [hover j (List.mem_range.mp hj)]
            simp [EtEv.run, EtEv.next, this]
          · simp only [Et.Phase]
            refine ⟨trivial, ?_, ?_, by intro j l hj; omega⟩
            · intro l hl
              obtain ⟨j, hj⟩ := List.mem_iff_getElem?.mp hl
              have hlt : j < env.n := by
                rw [← h.len]
                rcases Nat.lt_or_ge j s.links.length with h | h
                · exact h
                · simp only at hj; rw [List.getElem?_eq_none h] at hj; cases hj
              have := hg.line j l hj
              rw [hover j hlt] at this
              simpa using (List.append_eq_nil_iff.mp this).1
            · intro td htd2
              have := List.all_eq_true.mp htd td htd2
              simpa using this
        · cases hs
          refine ⟨some f, rfl, h.len, h.fine, ?_⟩
          simp only [Et.Phase]
          exact ⟨f, own, rfl, hg.lenEq, hg.valid, Nat.zero_le _, Nat.zero_le _, hg.line, hg.sizes, hg.count, hg.owner⟩
      · cases hs
    · cases hs

theorem Et.inv_run {env : EtEnv} (he : env.Ok) {p : Et → EtAct → Bool} {as : List EtAct} {s : Et} {es : List EtEv} (hr : Et.Run env p (Et.init env) as s es) : ∃ st, EtEv.run env.n env.max none es = some st ∧ s.Inv env st := by
  induction hr with
  | nil => exact ⟨none, rfl, Et.inv_init env⟩
  | snoc s1 s2 as a es es' _ _ hs ih =>
    obtain ⟨st, h1, h2⟩ := ih
    obtain ⟨st', h3, h4⟩ := Et.inv_step he h2 hs
    exact ⟨st', by rw [EtEv.run_append, h1]; exact h3, h4⟩

/-- **C87** (right): whatever the schedule, the sizes of the buffers and the tests, over every link exactly the messages sent over it come back, in order, and a test is reported as finished exactly when all of them did: nothing is lost, nothing comes twice, nothing is taken
for a message of another test. -/
theorem C87_right {env : EtEnv} (he : env.Ok) {as : List EtAct} {s : Et} {es : List EtEv} (hr : Et.Run env Et.any (Et.init env) as s es) : (EtEv.run env.n env.max none es).isSome = true := by
  obtain ⟨st, h, _⟩ := Et.inv_run he hr
  rw [h]; rfl

/-! ### complaints -/

structure Et.Quiet (env : EtEnv) (s : Et) (st : Option (Nat → List Nat)) : Prop where
  head : s.check = true → ∀ (j : Nat) (l : EtLink), s.links[j]? = some l → l.half = true → ∀ m, l.hand.head? = some m → m.seq = l.index
  cleared : ∀ t i, s.main = .clearing t i → ∀ (j : Nat) (l : EtLink), j < i → s.links[j]? = some l → l.index = 0 ∧ l.hand = []
  going : ∀ t i acc, s.main = .going t i acc → s.check = t.checks ∧ ∀ f, st = some f → t.checks = true → ∀ (j : Nat) (l : EtLink), s.links[j]? = some l → f j = (t.expect env.n env.max j).drop (l.index + if l.half then 1 else 0)

theorem EtLink.step_cases {env : EtEnv} {i : Nat} {chk : Bool} {l l' : EtLink} {a : EtLAct} {es : List EtEv} (h : l.Fine) (hs : l.step env i chk a = some (l', es)) :
    (∃ m r, l.hand = m :: r ∧ l.half = false ∧ l'.hand = l.hand ∧ l'.half = true ∧ l'.index = l.index ∧ es = [.arrived i m.seq]) ∨
    (∃ m r, l.hand = m :: r ∧ l.half = true ∧ l'.hand = r ∧ l'.half = false ∧ l'.index = l.index + 1 ∧ es = if chk = true ∧ m.seq ≠ l.index then [.complaint i] else []) ∨
    (es = [] ∧ l'.index = l.index ∧ l'.half = l.half ∧ (l.half = true → l'.hand = l.hand) ∧ (l.coming = [] → l'.hand = l.hand)) := by
  cases a with
  | add =>
    simp only [EtLink.step] at hs
    (repeat' split at hs) <;> (try cases hs)
    rename_i m r h1 h2
    exact .inl ⟨m, r, h1, by simpa using h2, rfl, rfl, rfl, rfl⟩
  | check =>
    simp only [EtLink.step] at hs
    split at hs
    · rename_i m r h1
      split at hs
      · rename_i h2
        simp only [Option.some.injEq, Prod.mk.injEq] at hs
        obtain ⟨rfl, rfl⟩ := hs
        exact .inr (.inl ⟨m, r, h1, h2, rfl, rfl, rfl, rfl⟩)
      · cases hs
    · cases hs
  | cliRead k =>
    simp only [EtLink.step] at hs
    (repeat' split at hs) <;> (try cases hs)
    rename_i h1
    refine .inr (.inr ⟨rfl, rfl, rfl, fun hh => absurd h1.1 (h hh), ?_⟩)
    intro hc
    simp only [EtLink.coming, List.append_eq_nil_iff] at hc
    have := h1.2; rw [hc.2.1] at this; simp at this; omega
  | _ =>
    right; right
    simp only [EtLink.step] at hs
    (repeat' split at hs) <;> (try cases hs) <;> exact ⟨rfl, rfl, rfl, fun _ => rfl, fun _ => rfl⟩

theorem drop_range_head {n k x : Nat} {r : List Nat} (h : (List.range n).drop k = x :: r) : x = k := by
  have h1 : ((List.range n).drop k)[0]? = some x := by rw [h]; rfl
  rw [List.getElem?_drop] at h1
  simp only [Nat.add_zero] at h1
  have h2 := List.getElem?_eq_some_iff.mp h1
  obtain ⟨h3, h4⟩ := h2
  rw [List.getElem_range] at h4; omega

theorem Et.quiet_link {env : EtEnv} {s s' : Et} {st : Option (Nat → List Nat)} {i : Nat} {a : EtLAct} {es : List EtEv} (h : s.Inv env st) (hq : s.Quiet env st) (hs : s.step env (.link i a) = some (s', es)) :
    (∀ j, EtEv.complaint j ∉ es) ∧ ∀ st', EtEv.run env.n env.max st es = some st' → s'.Quiet env st' := by
  simp only [Et.step] at hs
  cases hl : s.links[i]? with
  | none => simp [hl] at hs
  | some l =>
    simp only [hl] at hs
    cases hst : l.step env i s.check a with
    | none => simp [hst] at hs
    | some r =>
      obtain ⟨l', es1⟩ := r
      simp only [hst, Option.map_some, Option.some.injEq, Prod.mk.injEq] at hs
      obtain ⟨rfl, rfl⟩ := hs
      have hfine := h.fine l (List.mem_of_getElem? hl)
      have hci : ∀ t k, s.main = .clearing t k → l.coming = [] := by
        intro t k hm
        have := h.phase
        simp only [Et.Phase, hm] at this
        exact this.2.2.2.coming l (List.mem_of_getElem? hl)
      rcases EtLink.step_cases hfine hst with ⟨m, r, h1, h2, h3, h4, h5, rfl⟩ | ⟨m, r, h1, h2, h3, h4, h5, rfl⟩ | ⟨rfl, h2, h3, h4, h5⟩
      · refine ⟨by simp, ?_⟩
        intro st' hst'
        cases st with
        | none => simp [EtEv.run, EtEv.next] at hst'
        | some f =>
          have hph := h.phase
          simp only [Et.Phase] at hph
          split at hph
          · cases hph.1
          · cases hph.1
          · rename_i t i0 acc hmain
            obtain ⟨f', own, hf', hg⟩ := hph
            cases hf'
            have hco := hg.line i l hl
            have : f i = m.seq :: ((r ++ (l.down ++ (l.back ++ (l.srv ++ (l.up ++ l.out))))).map (·.seq) ++ pendOf own s.todo i) := by
              rw [← hco]; simp [EtLink.coming, h1, h2]
            simp only [EtEv.run, EtEv.next, this, if_pos, Option.bind_some, Option.some.injEq] at hst'
            subst hst'
            obtain ⟨hg1, hg2⟩ := hq.going t i0 acc hmain
            refine ⟨?_, ?_, ?_⟩
            · intro hc j x hx hh m' hm'
              rcases getElem?_set_some hx with ⟨rfl, rfl⟩ | ⟨_, hx⟩
              · rw [h3, h1] at hm'
                cases hm'
                rw [h5]
                have hd := hg2 f rfl (hg1.symm.trans hc) i l hl
                rw [this, h2] at hd
                cases t with
                | rand a b => have hc : s.check = true := hc; rw [hc] at hg1; cases hg1
                | conc a b c =>
                  simp only [EtTest.expect, Bool.false_eq_true, if_false, Nat.add_zero] at hd
                  split at hd
                  · have := drop_range_head hd.symm; simpa using this
                  · simp at hd
              · exact hq.head hc j x hx hh m' hm'
            · intro t' k hm'; simp only at hm'; rw [hmain] at hm'; cases hm'
            · intro t' i1 acc' hm'
              simp only at hm'; rw [hmain] at hm'; cases hm'
              refine ⟨hg1, ?_⟩
              intro f2 hf2 htc j x hx
              simp only [Option.some.injEq] at hf2
              subst hf2
              rcases getElem?_set_some hx with ⟨rfl, rfl⟩ | ⟨hne, hx⟩
              · have hd := hg2 f rfl htc i l hl
                rw [this, h2] at hd
                simp only [h5, h4, if_true]
                have := congrArg List.tail hd
                simpa using this
              · show (if j = i then _ else f j) = _
                rw [if_neg (show ¬ j = i from fun h => hne h.symm)]; exact hg2 f rfl htc j x hx
      · have hno : ¬ (s.check = true ∧ m.seq ≠ l.index) := by
          intro ⟨hc, hne⟩
          exact hne (hq.head hc i l hl h2 m (by rw [h1]; rfl))
        rw [if_neg hno]
        refine ⟨by simp, ?_⟩
        intro st' hst'
        simp only [EtEv.run, Option.some.injEq] at hst'
        subst hst'
        refine ⟨?_, ?_, ?_⟩
        · intro hc j x hx hh m' hm'
          rcases getElem?_set_some hx with ⟨rfl, rfl⟩ | ⟨_, hx⟩
          · rw [h4] at hh; cases hh
          · exact hq.head hc j x hx hh m' hm'
        · intro t k hm j x hj hx
          rcases getElem?_set_some hx with ⟨rfl, rfl⟩ | ⟨_, hx⟩
          · have := (hq.cleared t k hm i l hj hl).2; rw [h1] at this; cases this
          · exact hq.cleared t k hm j x hj hx
        · intro t i0 acc hm
          obtain ⟨hg1, hg2⟩ := hq.going t i0 acc hm
          refine ⟨hg1, ?_⟩
          intro f hf htc j x hx
          rcases getElem?_set_some hx with ⟨rfl, rfl⟩ | ⟨_, hx⟩
          · have := hg2 f hf htc i l hl
            rw [h2] at this
            rw [h4, h5]; simpa using this
          · exact hg2 f hf htc j x hx
      · refine ⟨by simp, ?_⟩
        intro st' hst'
        simp only [EtEv.run, Option.some.injEq] at hst'
        subst hst'
        refine ⟨?_, ?_, ?_⟩
        · intro hc j x hx hh m' hm'
          rcases getElem?_set_some hx with ⟨rfl, rfl⟩ | ⟨_, hx⟩
          · rw [h3] at hh
            rw [h4 hh] at hm'
            rw [h2]; exact hq.head hc i l hl hh m' hm'
          · exact hq.head hc j x hx hh m' hm'
        · intro t k hm j x hj hx
          rcases getElem?_set_some hx with ⟨rfl, rfl⟩ | ⟨_, hx⟩
          · rw [h2, h5 (hci t k hm)]; exact hq.cleared t k hm i l hj hl
          · exact hq.cleared t k hm j x hj hx
        · intro t i0 acc hm
          obtain ⟨hg1, hg2⟩ := hq.going t i0 acc hm
          refine ⟨hg1, ?_⟩
          intro f hf htc j x hx
          rcases getElem?_set_some hx with ⟨rfl, rfl⟩ | ⟨_, hx⟩
          · rw [h2, h3]; exact hg2 f hf htc i l hl
          · exact hg2 f hf htc j x hx

theorem Et.quiet_step {env : EtEnv} {s s' : Et} {st : Option (Nat → List Nat)} {a : EtAct} {es : List EtEv} (h : s.Inv env st) (hq : s.Quiet env st) (hp : s.calm a = true) (hs : s.step env a = some (s', es)) :
    (∀ j, EtEv.complaint j ∉ es) ∧ ∀ st', EtEv.run env.n env.max st es = some st' → s'.Quiet env st' := by
  cases a with
  | link i a => exact Et.quiet_link h hq hs
  | send j =>
    simp only [Et.step] at hs
    (repeat' split at hs) <;> (try cases hs)
    rename_i i k r htd _ l hl hroom
    refine ⟨by simp, ?_⟩
    intro st' hst'
    simp only [EtEv.run, Option.some.injEq] at hst'
    subst hst'
    refine ⟨?_, ?_, ?_⟩
    · intro hc j x hx hh m' hm'
      rcases getElem?_set_some hx with ⟨rfl, rfl⟩ | ⟨_, hx⟩
      · exact hq.head hc i l hl hh m' hm'
      · exact hq.head hc j x hx hh m' hm'
    · intro t k hm j x hj hx
      rcases getElem?_set_some hx with ⟨rfl, rfl⟩ | ⟨_, hx⟩
      · exact hq.cleared t k hm i l hj hl
      · exact hq.cleared t k hm j x hj hx
    · intro t i0 acc hm
      obtain ⟨hg1, hg2⟩ := hq.going t i0 acc hm
      refine ⟨hg1, ?_⟩
      intro f hf htc j x hx
      rcases getElem?_set_some hx with ⟨rfl, rfl⟩ | ⟨_, hx⟩
      · exact hg2 f hf htc i l hl
      · exact hg2 f hf htc j x hx
  | begin t =>
    simp only [Et.step] at hs
    split at hs <;> cases hs
    refine ⟨by simp, ?_⟩
    intro st' hst'
    refine ⟨hq.head, ?_, ?_⟩
    · intro t' i hm j l hj; cases hm; omega
    · intro t' i acc hm; cases hm
  | clear =>
    simp only [Et.calm] at hp
    simp only [Et.step] at hs
    cases hm : s.main with
    | idle => simp [hm] at hs
    | going t i acc => simp [hm] at hs
    | clearing t i =>
      simp only [hm] at hs hp
      cases hl : s.links[i]? with
      | none => simp [hl] at hs
      | some l =>
        simp only [hl, Option.some.injEq, Prod.mk.injEq, List.isEmpty_iff] at hs hp
        obtain ⟨rfl, rfl⟩ := hs
        refine ⟨by simp, ?_⟩
        intro st' _
        refine ⟨?_, ?_, ?_⟩
        · intro hc j x hx hh m' hm'
          rcases getElem?_set_some hx with ⟨rfl, rfl⟩ | ⟨_, hx⟩
          · simp [hp] at hm'
          · exact hq.head hc j x hx hh m' hm'
        · intro t' k hm' j x hj hx
          cases hm'
          rcases getElem?_set_some hx with ⟨rfl, rfl⟩ | ⟨hne, hx⟩
          · exact ⟨rfl, hp⟩
          · exact hq.cleared t i hm j x (by omega) hx
        · intro t' i acc hm'; cases hm'
  | launch =>
    simp only [Et.step] at hs
    cases hm : s.main with
    | idle => simp [hm] at hs
    | going t i acc => simp [hm] at hs
    | clearing t i =>
      simp only [hm] at hs
      split at hs
      · rename_i hi
        cases htd : t.todo env with
        | none => simp [htd] at hs
        | some td =>
          simp only [htd, Option.map_some, Option.some.injEq, Prod.mk.injEq] at hs
          obtain ⟨rfl, rfl⟩ := hs
          refine ⟨by simp, ?_⟩
          intro st' hst'
          have hph := h.phase
          simp only [Et.Phase, hm] at hph
          rw [hph.1] at hst'
          simp only [EtEv.run, EtEv.next, Option.bind_some, Option.some.injEq] at hst'
          subst hst'
          have hcl : ∀ (j : Nat) (l : EtLink), s.links[j]? = some l → l.index = 0 ∧ l.half = false := by
            intro j l hl
            have hj : j < i := by
              rw [hi, ← h.len]
              rcases Nat.lt_or_ge j s.links.length with h | h
              · exact h
              · rw [List.getElem?_eq_none h] at hl; cases hl
            have h1 := hq.cleared t i hm j l hj hl
            refine ⟨h1.1, ?_⟩
            cases hh : l.half with
            | false => rfl
            | true => exact absurd h1.2 (h.fine l (List.mem_of_getElem? hl) hh)
          refine ⟨?_, ?_, ?_⟩
          · intro _ j l hl hh; rw [(hcl j l hl).2] at hh; cases hh
          · intro t' k hm'; cases hm'
          · intro t' k acc hm'
            cases hm'
            refine ⟨rfl, ?_⟩
            intro f hf _ j l hl
            cases hf
            have := hcl j l hl
            rw [this.1, this.2]; rfl
      · cases hs
  | poll =>
    simp only [Et.step] at hs
    cases hm : s.main with
    | idle => simp [hm] at hs
    | clearing t i => simp [hm] at hs
    | going t i acc =>
      simp only [hm] at hs
      split at hs
      · cases hl : s.links[i]? with
        | none => simp [hl] at hs
        | some l =>
          simp only [hl, Option.map_some, Option.some.injEq, Prod.mk.injEq] at hs
          obtain ⟨rfl, rfl⟩ := hs
          refine ⟨by simp, ?_⟩
          intro st' hst'
          simp only [EtEv.run, Option.some.injEq] at hst'
          subst hst'
          exact ⟨hq.head, by intro t' k hm'; (cases hm'), by intro t' k acc' hm'; (cases hm'); exact hq.going t i acc hm⟩
      · cases hs
  | verdict =>
    simp only [Et.step] at hs
    cases hm : s.main with
    | idle => simp [hm] at hs
    | clearing t i => simp [hm] at hs
    | going t i acc =>
      simp only [hm] at hs
      (repeat' split at hs) <;> (try cases hs)
      · refine ⟨by simp, ?_⟩
        intro st' hst'
        exact ⟨hq.head, by intro t' k hm'; (cases hm'), by intro t' k acc' hm'; (cases hm')⟩
      · refine ⟨by simp, ?_⟩
        intro st' hst'
        simp only [EtEv.run, Option.some.injEq] at hst'
        subst hst'
        exact ⟨hq.head, by intro t' k hm'; (cases hm'), by intro t' k acc' hm'; (cases hm'); exact hq.going t i acc hm⟩

/-- **C87** (no false alarms), partial: if clear_status is never called while on_msg of that link runs, the client never reports a message as wrong. Missing: a call which is still running when the next test begins, see `C87_fails_complaint`. -/
theorem C87_quiet_partial {env : EtEnv} (he : env.Ok) {as : List EtAct} {s : Et} {es : List EtEv} (hr : Et.Run env Et.calm (Et.init env) as s es) (i : Nat) : EtEv.complaint i ∉ es := by
  suffices ∃ st, EtEv.run env.n env.max none es = some st ∧ s.Inv env st ∧ s.Quiet env st ∧ ∀ i, EtEv.complaint i ∉ es by
    obtain ⟨_, _, _, _, h⟩ := this; exact h i
  induction hr with
  | nil =>
    refine ⟨none, rfl, Et.inv_init env, ⟨(by intro h; cases h), ?_, ?_⟩, by simp⟩
    · intro t i hm; cases hm
    · intro t i acc hm; cases hm
  | snoc s1 s2 as a es es' _ hp hs ih =>
    obtain ⟨st, h1, h2, h3, h4⟩ := ih
    obtain ⟨st', h5, h6⟩ := Et.inv_step he h2 hs
    obtain ⟨h7, h8⟩ := Et.quiet_step h2 h3 hp hs
    refine ⟨st', by rw [EtEv.run_append, h1]; exact h5, h6, h8 st' h5, ?_⟩
    intro j hj
    rcases List.mem_append.mp hj with hj | hj
    · exact h4 j hj
    · exact h7 j hj

/-! ### buffers -/

/-- **C87** (buffers): the send buffer of the server never holds more than one batch of ten messages above what its limit allows, that of the client not more than one message. -/
theorem C87_bound {env : EtEnv} (he : env.Ok) {as : List EtAct} {s : Et} {es : List EtEv} (hr : Et.Run env Et.any (Et.init env) as s es) : ∀ l ∈ s.links,
    (∃ a b, l.back = a ++ b ∧ (a.map fun m => env.packed m.len).sum < env.slimit ∧ b.length ≤ 10) ∧ ∃ a b, l.out = a ++ b ∧ (a.map fun m => env.packed m.len).sum < env.climit ∧ b.length ≤ 1 := by
  induction hr with
  | nil =>
    intro l hl
    have := List.eq_of_mem_replicate hl
    subst this
    exact ⟨⟨[], [], rfl, he.slimit, by simp⟩, [], [], rfl, he.climit, by simp⟩
  | snoc s1 s2 as a es es' _ _ hs ih =>
    have pop : ∀ {lim n : Nat} {m : EtMsg} {q r : List EtMsg}, 0 < lim → q = m :: r → (∃ a b, q = a ++ b ∧ (a.map fun m => env.packed m.len).sum < lim ∧ b.length ≤ n) → ∃ a b, r = a ++ b ∧ (a.map fun m => env.packed m.len).sum < lim ∧ b.length ≤ n := by
      intro lim n m q r hlim hq ⟨a, b, h1, h2, h3⟩
      cases a with
      | nil =>
        cases b with
        | nil => simp [hq] at h1
        | cons x b =>
          rw [hq] at h1; cases h1
          exact ⟨[], r, rfl, hlim, by simp at h3; omega⟩
      | cons x a =>
        rw [hq] at h1; cases h1
        exact ⟨a, b, rfl, by simp at h2; omega, h3⟩
    cases a with
    | link i a =>
      simp only [Et.step] at hs
      cases hl : s1.links[i]? with
      | none => simp [hl] at hs
      | some l =>
        simp only [hl] at hs
        cases hst : l.step env i s1.check a with
        | none => simp [hst] at hs
        | some r =>
          obtain ⟨l', es1⟩ := r
          simp only [hst, Option.map_some, Option.some.injEq, Prod.mk.injEq] at hs
          obtain ⟨rfl, rfl⟩ := hs
          intro x hx
          rcases mem_set_cases hx with rfl | hx
          · have hold := ih l (List.mem_of_getElem? hl)
            cases a <;> simp only [EtLink.step] at hst <;> (repeat' split at hst) <;> (try cases hst)
            · rename_i h1 _; exact ⟨hold.1, pop he.climit h1 hold.2⟩
            · exact hold
            · rename_i h1
              exact ⟨⟨l.back, l.srv.take 10, rfl, h1.2, List.length_take_le _ _⟩, hold.2⟩
            · rename_i h1 _; exact ⟨pop he.slimit h1 hold.1, hold.2⟩
            all_goals exact hold
          · exact ih x hx
    | send j =>
      simp only [Et.step] at hs
      (repeat' split at hs) <;> (try cases hs)
      rename_i i k r htd _ l hl hroom
      intro x hx
      rcases mem_set_cases hx with rfl | hx
      · have hold := ih l (List.mem_of_getElem? hl)
        exact ⟨hold.1, l.out, [⟨k, s1.len⟩], rfl, hroom, by simp⟩
      · exact ih x hx
    | clear =>
      simp only [Et.step] at hs
      (repeat' split at hs) <;> (try cases hs)
      rename_i t i hm _ l hl
      intro x hx
      rcases mem_set_cases hx with rfl | hx
      · exact ih l (List.mem_of_getElem? hl)
      · exact ih x hx
    | begin t =>
      simp only [Et.step] at hs
      split at hs <;> cases hs
      exact ih
    | launch =>
      simp only [Et.step] at hs
      split at hs
      · split at hs
        · obtain ⟨td, _, h⟩ := Option.map_eq_some_iff.mp hs
          cases h; exact ih
        · cases hs
      · cases hs
    | poll =>
      simp only [Et.step] at hs
      split at hs
      · split at hs
        · rename_i t i acc _ _
          cases hl : s1.links[i]? with
          | none => simp [hl] at hs
          | some l => simp only [hl, Option.map_some, Option.some.injEq, Prod.mk.injEq] at hs; obtain ⟨rfl, rfl⟩ := hs; exact ih
        · cases hs
      · cases hs
    | verdict =>
      simp only [Et.step] at hs
      (repeat' split at hs) <;> (try cases hs) <;> exact ih

/-! ### the end -/

def EtAct.isWork : EtAct → Bool
  | .send _ => true
  | .link _ _ => true
  | _ => false

def EtLink.work (l : EtLink) : Nat := 7 * l.out.length + 6 * l.up.length + 5 * l.srv.length + 4 * l.back.length + 3 * l.down.length + (2 * l.hand.length - if l.half then 1 else 0)

def Et.work (s : Et) : Nat := (s.links.map EtLink.work).sum + 8 * (s.todo.map List.length).sum

theorem sum_map_set {α : Type} {ls : List α} {i : Nat} {x y : α} (w : α → Nat) (h : ls[i]? = some x) : ((ls.set i y).map w).sum + w x = (ls.map w).sum + w y := by
  induction ls generalizing i with
  | nil => simp at h
  | cons a ls ih =>
    cases i with
    | zero => simp only [List.getElem?_cons_zero, Option.some.injEq] at h; subst h; simp only [List.set_cons_zero, List.map_cons, List.sum_cons]; omega
    | succ i =>
      have := ih (i := i) (by simpa using h)
      simp only [List.set_cons_succ, List.map_cons, List.sum_cons]; omega

theorem EtLink.step_work {env : EtEnv} {i : Nat} {chk : Bool} {l l' : EtLink} {a : EtLAct} {es : List EtEv} (h : l.Fine) (hs : l.step env i chk a = some (l', es)) : l'.work < l.work := by
  cases a with
  | xmit =>
    simp only [EtLink.step] at hs
    (repeat' split at hs) <;> (try cases hs)
    rename_i h1 _; simp only [EtLink.work, h1, List.length_append, List.length_cons, List.length_nil]; omega
  | srvRead k =>
    simp only [EtLink.step] at hs
    (repeat' split at hs) <;> (try cases hs)
    simp only [EtLink.work, List.length_append, List.length_take, List.length_drop]; omega
  | srvHandle =>
    simp only [EtLink.step] at hs
    (repeat' split at hs) <;> (try cases hs)
    rename_i h1
    have := List.length_pos_iff.mpr h1.1
    simp only [EtLink.work, List.length_append, List.length_take, List.length_drop]; omega
  | srvXmit =>
    simp only [EtLink.step] at hs
    (repeat' split at hs) <;> (try cases hs)
    rename_i h1 _; simp only [EtLink.work, h1, List.length_append, List.length_cons, List.length_nil]; omega
  | cliRead k =>
    simp only [EtLink.step] at hs
    (repeat' split at hs) <;> (try cases hs)
    rename_i h1
    have h2 : l.half = false := by cases hh : l.half with
      | false => rfl
      | true => exact absurd h1.1 (h hh)
    simp only [EtLink.work, h2, h1.1, List.length_take, List.length_drop, List.length_nil]; simp; omega
  | add =>
    simp only [EtLink.step] at hs
    (repeat' split at hs) <;> (try cases hs)
    rename_i m r h1 h2
    simp only [EtLink.work, h1, h2, List.length_cons]; simp; omega
  | check =>
    simp only [EtLink.step] at hs
    split at hs
    · rename_i m r h1
      split at hs
      · rename_i h2
        simp only [Option.some.injEq, Prod.mk.injEq] at hs
        obtain ⟨rfl, rfl⟩ := hs
        simp only [EtLink.work, h1, h2, List.length_cons]; simp; omega
      · cases hs
    · cases hs

theorem Et.step_work {env : EtEnv} {s s' : Et} {a : EtAct} {es : List EtEv} (h : ∀ l ∈ s.links, l.Fine) (hl : a ≠ .launch) (hs : s.step env a = some (s', es)) : s'.work + (if a.isWork then 1 else 0) ≤ s.work := by
  cases a with
  | link i a =>
    simp only [Et.step] at hs
    cases hl : s.links[i]? with
    | none => simp [hl] at hs
    | some l =>
      simp only [hl] at hs
      cases hst : l.step env i s.check a with
      | none => simp [hst] at hs
      | some r =>
        obtain ⟨l', es1⟩ := r
        simp only [hst, Option.map_some, Option.some.injEq, Prod.mk.injEq] at hs
        obtain ⟨rfl, rfl⟩ := hs
        have h1 := EtLink.step_work (h l (List.mem_of_getElem? hl)) hst
        have h2 := sum_map_set (y := l') EtLink.work hl
        simp only [Et.work, EtAct.isWork, if_true]; omega
  | send j =>
    simp only [Et.step] at hs
    (repeat' split at hs) <;> (try cases hs)
    rename_i i k r htd _ l hl hroom
    have h1 := sum_map_set (y := r) List.length htd
    have h2 := sum_map_set (y := { l with out := l.out ++ [⟨k, s.len⟩] }) EtLink.work hl
    have h3 : EtLink.work { l with out := l.out ++ [⟨k, s.len⟩] } = l.work + 7 := by
      simp only [EtLink.work, List.length_append, List.length_cons, List.length_nil]; omega
    simp only [Et.work, EtAct.isWork, if_true]
    simp only [List.length_cons] at h1
    omega
  | clear =>
    simp only [Et.step] at hs
    (repeat' split at hs) <;> (try cases hs)
    rename_i t i hm _ l hl
    have h2 := sum_map_set (y := { l with bytes := 0, index := 0 }) EtLink.work hl
    have h3 : EtLink.work { l with bytes := 0, index := 0 } = l.work := rfl
    simp only [Et.work, EtAct.isWork, Bool.false_eq_true, if_false]; omega
  | begin t =>
    simp only [Et.step] at hs
    split at hs <;> cases hs
    exact Nat.le_refl _
  | launch => exact absurd rfl hl
  | poll =>
    simp only [Et.step] at hs
    split at hs
    · split at hs
      · rename_i t i acc _ _
        cases hl : s.links[i]? with
        | none => simp [hl] at hs
        | some l => simp only [hl, Option.map_some, Option.some.injEq, Prod.mk.injEq] at hs; obtain ⟨rfl, rfl⟩ := hs; exact Nat.le_refl _
      · cases hs
    · cases hs
  | verdict =>
    simp only [Et.step] at hs
    (repeat' split at hs) <;> (try cases hs) <;> exact Nat.le_refl _

/-- A link on which there is something can do a step. -/
theorem EtLink.enabled {env : EtEnv} (he : env.Ok) (i : Nat) (chk : Bool) {l : EtLink} (h : l.hand ≠ [] ∨ l.coming ≠ []) : ∃ a l' es, l.step env i chk a = some (l', es) := by
  cases hh : l.hand with
  | cons m r =>
    cases hf : l.half with
    | false => exact ⟨.add, _, _, by simp only [EtLink.step, hh, hf]; rfl⟩
    | true => exact ⟨.check, _, _, by simp only [EtLink.step, hh, hf, if_true]; rfl⟩
  | nil =>
    cases hd : l.down with
    | cons m r => exact ⟨.cliRead 1, _, _, by simp only [EtLink.step, hh, hd]; rw [if_pos ⟨trivial, by omega, by simp⟩]⟩
    | nil =>
      cases hb : l.back with
      | cons m r => exact ⟨.srvXmit, _, _, by simp only [EtLink.step, hb, hd]; rw [if_pos (by simpa using he.cap)]⟩
      | nil =>
        cases hs : l.srv with
        | cons m r => exact ⟨.srvHandle, _, _, by simp only [EtLink.step, hb, hs]; rw [if_pos ⟨by simp, by simpa [EtEnv.sendSize] using he.slimit⟩]⟩
        | nil =>
          cases hu : l.up with
          | cons m r => exact ⟨.srvRead 1, _, _, by simp only [EtLink.step, hs, hu]; rw [if_pos ⟨by omega, by simp, by simpa [recvSize] using he.rlimit⟩]⟩
          | nil =>
            cases ho : l.out with
            | cons m r => exact ⟨.xmit, _, _, by simp only [EtLink.step, ho, hu]; rw [if_pos (by simpa using he.cap)]⟩
            | nil => simp [EtLink.coming, hh, hd, hb, hs, hu, ho] at h

theorem Et.enabled {env : EtEnv} (he : env.Ok) {s : Et} {t : EtTest} {i acc : Nat} {f : Nat → List Nat} {own : Nat → Nat} (hlen : s.links.length = env.n) (hg : s.Going env t i acc f own) :
    (∃ a s' es, a.isWork = true ∧ s.step env a = some (s', es)) ∨ ((∀ l ∈ s.links, l.hand = [] ∧ l.coming = []) ∧ ∀ td ∈ s.todo, td = []) := by
  by_cases h1 : ∃ l ∈ s.links, l.hand ≠ [] ∨ l.coming ≠ []
  · obtain ⟨l, hl, h⟩ := h1
    obtain ⟨j, hj⟩ := List.mem_iff_getElem?.mp hl
    obtain ⟨a, l', es, hs⟩ := EtLink.enabled he j s.check h
    exact .inl ⟨.link j a, _, _, rfl, by simp only [Et.step, hj, hs]; rfl⟩
  · have h1 : ∀ l ∈ s.links, l.hand = [] ∧ l.coming = [] := by
      intro l hl
      refine ⟨Classical.byContradiction fun h => h1 ⟨l, hl, .inl h⟩, Classical.byContradiction fun h => h1 ⟨l, hl, .inr h⟩⟩
    by_cases h2 : ∃ td ∈ s.todo, td ≠ []
    · obtain ⟨td, htd, hne⟩ := h2
      obtain ⟨j, hj⟩ := List.mem_iff_getElem?.mp htd
      cases td with
      | nil => exact absurd rfl hne
      | cons x r =>
        obtain ⟨y, k⟩ := x
        have hy := (hg.owner j y k (by rw [List.getD_eq_getElem?_getD, hj]; exact List.mem_cons_self)).2
        have hl : s.links[y]? = some (s.links[y]'(by omega)) := List.getElem?_eq_getElem (by omega)
        have hc := (h1 _ (List.mem_of_getElem? hl)).2
        simp only [EtLink.coming, List.append_eq_nil_iff] at hc
        have hroom : env.sendSize (s.links[y]'(by omega)).out < env.climit := by rw [hc.2.2.2.2.2]; simpa [EtEnv.sendSize] using he.climit
        exact .inl ⟨.send j, _, _, rfl, by simp only [Et.step, hj, hl]; exact if_pos hroom⟩
    · exact .inr ⟨h1, fun td htd => Classical.byContradiction fun h => h2 ⟨td, htd, h⟩⟩

theorem Et.readAll {env : EtEnv} {s : Et} {t : EtTest} (hlen : s.links.length = env.n) (hempty : s.todo.all (·.isEmpty) = true) : ∀ (d i acc : Nat), i + d = env.n → s.main = .going t i acc →
    ∃ bs, (∀ b ∈ bs, b = .poll) ∧ Et.Run env Et.any s bs { s with main := .going t env.n (acc + ((s.links.drop i).map (·.bytes)).sum) } [] := by
  intro d
  induction d generalizing s with
  | zero =>
    intro i acc hi hm
    refine ⟨[], by simp, ?_⟩
    have hi : i = env.n := by omega
    subst hi
    rw [List.drop_of_length_le (by omega)]
    have : ({ s with main := .going t env.n (acc + (([] : List EtLink).map (·.bytes)).sum) } : Et) = s := by
      obtain ⟨a, b, c, d, e⟩ := s; simp only at hm; subst hm; rfl
    rw [this]; exact .nil _
  | succ d ih =>
    intro i acc hi hm
    have hl : s.links[i]? = some (s.links[i]'(by omega)) := List.getElem?_eq_getElem (by omega)
    have h1 : s.step env .poll = some ({ s with main := .going t (i + 1) (acc + (s.links[i]'(by omega)).bytes) }, []) := by
      simp only [Et.step, hm, hl]; rw [if_pos (.inr hempty)]; rfl
    obtain ⟨bs, h2, h3⟩ := ih (s := { s with main := .going t (i + 1) (acc + (s.links[i]'(by omega)).bytes) }) hlen hempty (i + 1) _ (by omega) rfl
    refine ⟨.poll :: bs, ?_, ?_⟩
    · intro b hb
      rcases List.mem_cons.mp hb with rfl | hb
      · rfl
      · exact h2 b hb
    · have h4 := (Et.run_one (p := Et.any) rfl h1).trans h3
      simp only [List.singleton_append, List.nil_append] at h4
      rw [List.drop_eq_getElem_cons (by omega), List.map_cons, List.sum_cons, ← Nat.add_assoc]
      exact h4

theorem Et.can_end {env : EtEnv} (he : env.Ok) : ∀ (w : Nat) {s : Et} {t : EtTest} {i acc : Nat} {st : Option (Nat → List Nat)}, s.work = w → s.Inv env st → s.main = .going t i acc →
    ∃ bs s' fs, Et.Run env Et.any s bs s' fs ∧ (∀ b ∈ bs, b.isWork = true ∨ b = .poll ∨ b = .verdict) ∧ EtEv.finished ∈ fs := by
  intro w
  induction w using Nat.strongRecOn with
  | ind w ih =>
    intro s t i acc st hw hi hm
    have hph := hi.phase
    simp only [Et.Phase, hm] at hph
    obtain ⟨f, own, rfl, hg⟩ := hph
    rcases Et.enabled he hi.len hg with ⟨a, s1, es, ha, hs⟩ | ⟨h1, h2⟩
    · have hlt := Et.step_work hi.fine (by intro h; rw [h] at ha; cases ha) hs
      rw [ha] at hlt
      obtain ⟨st', _, hi'⟩ := Et.inv_step he hi hs
      have hm' : s1.main = .going t i acc := by
        cases a <;> simp only [EtAct.isWork, Bool.false_eq_true] at ha <;> simp only [Et.step] at hs
        · (repeat' split at hs) <;> (try cases hs)
          exact hm
        · split at hs
          · obtain ⟨r, _, h⟩ := Option.map_eq_some_iff.mp hs
            cases h; exact hm
          · cases hs
      obtain ⟨bs, s2, fs, h3, h4, h5⟩ := ih s1.work (by simp at hlt; omega) rfl hi' hm'
      refine ⟨a :: bs, s2, es ++ fs, (Et.run_one rfl hs).trans h3, ?_, List.mem_append_right _ h5⟩
      intro b hb
      rcases List.mem_cons.mp hb with rfl | hb
      · exact .inl ha
      · exact h4 b hb
    · have htot := total_ok he hg.valid
      have hempty : s.todo.all (·.isEmpty) = true := by
        rw [List.all_eq_true]; intro td htd; simp [h2 td htd]
      have hsum : (s.links.map (·.bytes)).sum = t.total env.n := by
        have hb := bytes_sum hg.count
        have hz : ((List.range s.links.length).map fun j => (f j).length) = ((List.range s.links.length).map fun _ => 0) := by
          apply List.map_congr_left
          intro j hj
          have hj := List.mem_range.mp hj
          have hl : s.links[j]? = some (s.links[j]'hj) := List.getElem?_eq_getElem hj
          have h3 := hg.line j _ hl
          rw [(h1 _ (List.mem_of_getElem? hl)).2] at h3
          have h4 : s.todo.getD (own j) [] = [] := by
            rw [List.getD_eq_getElem?_getD]
            cases ho : s.todo[own j]? with
            | none => rfl
            | some td => exact h2 td (List.mem_of_getElem? ho)
          simp only [pendOf, h4] at h3
          rw [← h3]; rfl
        have hz0 : ∀ k, ((List.range k).map fun _ => 0).sum = 0 := by
          intro k; induction k with
          | zero => rfl
          | succ k ih => rw [List.range_succ, List.map_append, List.sum_append, ih]; rfl
        rw [hz, hz0, hi.len, htot.2.2] at hb
        omega
      have hfin : ∀ {s0 : Et} {acc : Nat}, s0.main = .going t env.n acc → s0.todo = s.todo → t.total env.n ≤ acc → s0.step env .verdict = some ({ s0 with main := .idle }, [.finished]) := by
        intro s0 acc hm0 ht0 hle
        simp only [Et.step, hm0, ht0, hempty, if_true, (EtTest.reached_iff htot.2.1).mpr hle]
      obtain ⟨bs, hb1, hb2⟩ := Et.readAll (t := t) hi.len hempty (env.n - i) i acc (by have := hg.iLe; omega) hm
      by_cases hdone : t.total env.n ≤ acc + ((s.links.drop i).map (·.bytes)).sum
      · refine ⟨bs ++ [.verdict], _, _, .snoc _ _ _ _ _ _ _ hb2 rfl (hfin (s0 := { s with main := .going t env.n (acc + ((s.links.drop i).map (·.bytes)).sum) }) rfl rfl hdone), ?_, by simp⟩
        intro b hb
        rcases List.mem_append.mp hb with hb | hb
        · exact .inr (.inl (hb1 b hb))
        · exact .inr (.inr (List.mem_singleton.mp hb))
      · have hre : t.reached env.n (acc + ((s.links.drop i).map (·.bytes)).sum) = false := by
          cases hx : t.reached env.n (acc + ((s.links.drop i).map (·.bytes)).sum) with
          | false => rfl
          | true => exact absurd ((EtTest.reached_iff htot.2.1).mp hx) hdone
        have hv : Et.step env { s with main := .going t env.n (acc + ((s.links.drop i).map (·.bytes)).sum) } .verdict = some ({ s with main := .going t 0 0 }, []) := by
          simp only [Et.step, hre, if_true, Bool.false_eq_true, if_false]
        obtain ⟨cs, hc1, hc2⟩ := Et.readAll (s := { s with main := .going t 0 0 }) (t := t) hi.len hempty env.n 0 0 (by omega) rfl
        have h3 := ((Et.Run.snoc _ _ _ _ _ _ _ hb2 rfl hv).trans hc2)
        refine ⟨_, _, _, .snoc _ _ _ _ _ _ _ h3 rfl (hfin rfl rfl (by simp [hsum])), ?_, by simp⟩
        intro b hb
        simp only [List.mem_append, List.mem_singleton] at hb
        rcases hb with ((hb | hb) | hb) | hb
        · exact .inr (.inl (hb1 b hb))
        · exact .inr (.inr hb)
        · exact .inr (.inl (hc1 b hb))
        · exact .inr (.inr hb)

/-- **C87** (the test ends): however small the buffers are, while a test is going on it can always come to its end without help from outside, and every schedule has only finitely many steps of sending threads, network, server and client before there is nothing left to do but to look:
at most eight for each message still to be sent, fewer for those on their way. There is no deadlock between full buffers. -/
theorem C87_ends {env : EtEnv} (he : env.Ok) {as : List EtAct} {s : Et} {es : List EtEv} {t : EtTest} {i acc : Nat} (hr : Et.Run env Et.any (Et.init env) as s es) (hm : s.main = .going t i acc) :
    (∃ bs s' fs, Et.Run env Et.any s bs s' fs ∧ (∀ b ∈ bs, b.isWork = true ∨ b = .poll ∨ b = .verdict) ∧ EtEv.finished ∈ fs) ∧
    ∀ bs s' fs, Et.Run env Et.any s bs s' fs → EtAct.launch ∉ bs → (bs.filter (·.isWork)).length ≤ s.work := by
  obtain ⟨st, _, hi⟩ := Et.inv_run he hr
  refine ⟨Et.can_end he _ rfl hi hm, ?_⟩
  intro bs s' fs hb hl
  suffices (∃ st', s'.Inv env st') ∧ s'.work + (bs.filter (·.isWork)).length ≤ s.work by omega
  clear hm
  induction hb with
  | nil => exact ⟨⟨st, hi⟩, by simp⟩
  | snoc s1 s2 bs b fs fs' _ _ hs ih =>
    obtain ⟨⟨st1, h1⟩, h2⟩ := ih (fun h => hl (by simp [h]))
    obtain ⟨st2, _, h3⟩ := Et.inv_step he h1 hs
    have h4 := Et.step_work h1.fine (by intro h; exact hl (by simp [h])) hs
    refine ⟨⟨st2, h3⟩, ?_⟩
    rw [List.filter_append, List.length_append, List.filter_cons]
    split <;> rename_i hb <;> simp only [hb] at h4 <;> simp at h4 ⊢ <;> omega

/-- Two links, the smallest possible buffers. -/
def EtEnv.demo : EtEnv := { n := 2, max := 7, order := [1, 0], climit := 1, cap := 1, rlimit := 1, slimit := 1, packed := fun n => n + 4 }

theorem EtEnv.demo_ok : EtEnv.demo.Ok := ⟨by decide, by decide, by decide, by decide, by decide, by decide, by decide⟩

/-- A message there and back over link i. -/
def EtAct.roundTrip (i : Nat) : List EtAct := [.link i .xmit, .link i (.srvRead 1), .link i .srvHandle, .link i .srvXmit, .link i (.cliRead 1), .link i .add, .link i .check]

/-- Two tests in a row. -/
theorem C87_demo : (Et.exec EtEnv.demo Et.calm (Et.init EtEnv.demo) ([.begin (.conc 8 2 9), .clear, .clear, .launch, .send 0, .send 1] ++ EtAct.roundTrip 0 ++ [.send 1, .poll] ++ EtAct.roundTrip 0 ++ EtAct.roundTrip 1 ++ [.poll, .verdict, .send 0] ++ EtAct.roundTrip 1 ++
      [.poll, .poll, .verdict, .begin (.rand [7, 3] 5), .clear, .clear, .launch, .send 0, .send 0] ++ EtAct.roundTrip 0 ++ EtAct.roundTrip 1 ++ [.poll, .poll, .verdict])).map (·.2) =
    some [.began (.conc 8 2 9), .arrived 0 0, .arrived 0 1, .arrived 1 0, .arrived 1 1, .finished, .began (.rand [7, 3] 5), .arrived 0 1, .arrived 1 0, .finished] := by decide +kernel

/-- A state in the middle of a test meets the hypotheses of `C87_ends`. -/
theorem C87_ends_demo : ∃ as s es, Et.Run EtEnv.demo Et.any (Et.init EtEnv.demo) as s es ∧ s.main = .going (.conc 8 2 9) 1 9 ∧ s.work = 24 := by
  obtain ⟨q, h1, h2, h3⟩ : ∃ q, Et.exec EtEnv.demo Et.any (Et.init EtEnv.demo) ([.begin (.conc 8 2 9), .clear, .clear, .launch, .send 1] ++ EtAct.roundTrip 0 ++ [.poll]) = some q ∧ q.1.main = .going (.conc 8 2 9) 1 9 ∧ q.1.work = 24 := ⟨_, rfl, by decide +kernel, by decide +kernel⟩
  exact ⟨_, q.1, q.2, Et.exec_run h1, h2, h3⟩

/-- **C87 is false** of complaints: handle_msg adds to recv_bytes before it counts the message. If the test is found finished in between, the next one clears recv_index and then the first call counts: from there on the client reports all messages as wrong although they are right. -/
theorem C87_fails_complaint : ∃ env : EtEnv, env.Ok ∧ ∃ as s es, Et.Run env Et.any (Et.init env) as s es ∧ es = [.began (.conc 1 1 8), .arrived 0 0, .finished, .began (.conc 1 1 8), .arrived 0 0, .complaint 0] ∧ (EtEv.run env.n env.max none es).isSome = true := by
  refine ⟨{ n := 1, max := 7, order := [0], climit := 1, cap := 1, rlimit := 1, slimit := 1, packed := id }, ⟨by decide, by decide, by decide, by decide, by decide, by decide, by decide⟩, ?_⟩
  obtain ⟨q, h1, h2⟩ : ∃ q, Et.exec { n := 1, max := 7, order := [0], climit := 1, cap := 1, rlimit := 1, slimit := 1, packed := id } Et.any (Et.init { n := 1, max := 7, order := [0], climit := 1, cap := 1, rlimit := 1, slimit := 1, packed := id })
      ([.begin (.conc 1 1 8), .clear, .launch, .send 0, .link 0 .xmit, .link 0 (.srvRead 1), .link 0 .srvHandle, .link 0 .srvXmit, .link 0 (.cliRead 1), .link 0 .add, .poll, .verdict, .begin (.conc 1 1 8), .clear, .link 0 .check, .launch, .send 0] ++ EtAct.roundTrip 0) = some q ∧
      q.2 = [.began (.conc 1 1 8), .arrived 0 0, .finished, .began (.conc 1 1 8), .arrived 0 0, .complaint 0] := ⟨_, rfl, by decide +kernel⟩
  refine ⟨_, q.1, q.2, Et.exec_run h1, h2, ?_⟩
  rw [h2]; rfl

end StAsio
