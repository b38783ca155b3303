import Verif.Lemmas.FileClient
/-!
C86: file_client works through its list (file_client/file_client.h).
-/
set_option autoImplicit false
namespace StAsio

theorem FcEv.givenOf_append (es fs : List FcEv) : FcEv.givenOf (es ++ fs) = FcEv.givenOf es ++ FcEv.givenOf fs := by
  induction es with
  | nil => rfl
  | cons e es ih => cases e <;> simp [FcEv.givenOf, ih]

theorem FcEv.takenOf_append (es fs : List FcEv) : FcEv.takenOf (es ++ fs) = FcEv.takenOf es ++ FcEv.takenOf fs := by
  induction es with
  | nil => rfl
  | cons e es ih => cases e <;> simp [FcEv.takenOf, ih]

theorem Fc.takeNext_order (env : FcEnv) (ls : List FcLink) (rs : List FileReq) :
    FcEv.givenOf (Fc.takeNext env ls rs).1 = [] ∧ FcEv.takenOf (Fc.takeNext env ls rs).1 ++ (Fc.takeNext env ls rs).2.2.1 = rs ∧ ((Fc.takeNext env ls rs).2.2.2 = false → (Fc.takeNext env ls rs).2.2.1 = []) := by
  induction rs generalizing ls with
  | nil => exact ⟨rfl, rfl, fun _ => rfl⟩
  | cons r rs ih =>
    simp only [Fc.takeNext]
    split
    · exact ⟨rfl, rfl, fun h => by cases h⟩
    · have := ih (FcLink.askFrom env r 0 ls).1
      exact ⟨this.1, by simp [FcEv.takenOf, this.2.1], this.2.2⟩

/-- What a step other than add and enter leaves alone. -/
theorem Fc.step_frame {env : FcEnv} {s s' : Fc} {a : FcAct} {es : List FcEv} (hs : s.step env a = some (s', es)) :
    FcEv.takenOf es ++ s'.list = s.list ++ FcEv.givenOf es ∧ (s.list = [] ∨ 0 < s.calls ∨ s.timer = true ∨ 0 < s.spin → s'.list = [] ∨ 0 < s'.calls ∨ s'.timer = true ∨ 0 < s'.spin) := by
  cases a with
  | add rs => simp only [Fc.step] at hs; cases hs; exact ⟨by simp [FcEv.takenOf, FcEv.givenOf], fun _ => .inr (.inl (Nat.succ_pos _))⟩
  | enter =>
    have h := Fc.takeNext_order env s.links s.list
    simp only [Fc.step] at hs
    split at hs
    · cases hs
    split at hs
    · rename_i ht; cases hs; exact ⟨by simp [FcEv.takenOf, FcEv.givenOf], fun _ => .inr (.inr (.inl ht))⟩
    · have e : s'.list = (Fc.takeNext env s.links s.list).2.2.1 ∧ s'.timer = (Fc.takeNext env s.links s.list).2.2.2 ∧ es = (Fc.takeNext env s.links s.list).1 := by
        split at hs <;> cases hs <;> exact ⟨rfl, rfl, rfl⟩
      rw [e.1, e.2.1, e.2.2, h.1, h.2.1]
      refine ⟨by simp, fun _ => ?_⟩
      cases hq : (Fc.takeNext env s.links s.list).2.2.2 with
      | false => exact .inl (h.2.2 hq)
      | true => exact .inr (.inr (.inl rfl))
  | tick =>
    simp only [Fc.step] at hs
    (repeat' split at hs) <;> (try cases hs) <;> refine ⟨by simp [FcEv.takenOf, FcEv.givenOf], fun hh => ?_⟩ <;> first | exact hh | exact .inr (.inl (Nat.succ_pos _)) | exact .inr (.inr (.inr (Nat.succ_pos _)))
  | spun =>
    simp only [Fc.step] at hs
    split at hs <;> cases hs
    exact ⟨by simp [FcEv.takenOf, FcEv.givenOf], fun hh => .inr (.inl (Nat.succ_pos _))⟩
  | info i ok =>
    simp only [Fc.step] at hs
    (repeat' split at hs) <;> cases hs <;> exact ⟨by simp [FcEv.takenOf, FcEv.givenOf], fun hh => hh⟩
  | bytes i k =>
    simp only [Fc.step] at hs
    (repeat' split at hs) <;> cases hs <;> exact ⟨by simp [FcEv.takenOf, FcEv.givenOf], fun hh => hh⟩
  | over i =>
    simp only [Fc.step] at hs
    (repeat' split at hs) <;> cases hs <;> exact ⟨by simp [FcEv.takenOf, FcEv.givenOf], fun hh => hh⟩
  | trunc i ok =>
    simp only [Fc.step] at hs
    (repeat' split at hs) <;> cases hs <;> exact ⟨by simp [FcEv.takenOf, FcEv.givenOf], fun hh => hh⟩
  | putReply i ok good =>
    simp only [Fc.step, Fc.readChunk] at hs
    (repeat' split at hs) <;> cases hs <;> exact ⟨by simp [FcEv.takenOf, FcEv.givenOf], fun hh => hh⟩
  | sent i good =>
    simp only [Fc.step, Fc.readChunk] at hs
    (repeat' split at hs) <;> cases hs <;> exact ⟨by simp [FcEv.takenOf, FcEv.givenOf], fun hh => hh⟩
  | lose i =>
    simp only [Fc.step] at hs
    (repeat' split at hs) <;> cases hs <;> exact ⟨by simp [FcEv.takenOf, FcEv.givenOf], fun hh => hh⟩

/-- **C86** (order): whatever happens, file_client takes on the files in the order in which it was asked for them, each once: what it took on followed by what is still on its list is what it was asked for. -/
theorem C86_order {env : FcEnv} {as : List FcAct} {s : Fc} {es : List FcEv} (hr : Fc.Run env Fc.any (Fc.init env) as s es) : FcEv.takenOf es ++ s.list = FcEv.givenOf es := by
  induction hr with
  | nil => rfl
  | snoc s1 s2 as a es es' _ _ hs ih =>
    rw [FcEv.takenOf_append, FcEv.givenOf_append, List.append_assoc, (Fc.step_frame hs).1, ← List.append_assoc, ih]

/-- **C86** (one at a time): if all links can open a file or none can, and no command gets to transmit_file between "100%" and the end of the last link, then files are transferred one at a time (a transfer begins only when all links are idle),
only files which cannot be opened fail, every byte moved belongs to the file being worked on, never more bytes than it has are moved, and "100%" is only said when all of them have been moved. -/
theorem C86_one_partial {env : FcEnv} (hu : env.Uniform) (hn : 0 < env.n) {as : List FcAct} {s : Fc} {es : List FcEv} (hr : Fc.Run env Fc.noCommand (Fc.init env) as s es) : FcEv.rightFrom env none es = true := by
  have key : ∃ c, Fc.Inv env s c ∧ ∀ fs, FcEv.rightFrom env none (es ++ fs) = FcEv.rightFrom env c fs := by
    induction hr with
    | nil => exact ⟨none, ⟨by simp [Fc.init], rfl, rfl, by simp [Fc.init]⟩, fun fs => rfl⟩
    | snoc s1 s2 as a es es' _ hp hs ih =>
      obtain ⟨c, h1, h2⟩ := ih
      obtain ⟨c', h3, h4⟩ := Fc.step_inv hu hn h1 hp hs
      exact ⟨c', h3, fun fs => by rw [List.append_assoc, h2, h4]⟩
  obtain ⟨c, _, h2⟩ := key
  have := h2 []
  rw [List.append_nil] at this
  rw [this]
  cases c <;> rfl

/-- A world with two links: file 1 has 5 bytes, file 2 has 3, file 3 cannot be opened. -/
def fcWorld : FcEnv := ⟨2, fun f _ => decide (f ≠ 3), fun f => if f = 1 then 5 else 3⟩

theorem C86_one_demo : fcWorld.Uniform ∧ ∃ s es, Fc.Run fcWorld Fc.noCommand (Fc.init fcWorld)
    [.add [⟨false, 1⟩, ⟨false, 3⟩, ⟨true, 2⟩], .enter, .info 1 true, .tick, .info 0 true, .bytes 1 3, .bytes 0 1, .over 1, .bytes 0 1, .tick, .over 0, .spun, .enter, .trunc 0 true, .putReply 0 true true, .putReply 1 true true, .tick, .sent 0 true, .sent 1 true, .spun, .enter] s es ∧
    es = [.given [⟨false, 1⟩, ⟨false, 3⟩, ⟨true, 2⟩], .began ⟨false, 1⟩, .moved 1 3, .moved 1 1, .moved 1 1, .done, .quiet, .failed ⟨false, 3⟩, .began ⟨true, 2⟩, .moved 2 1, .moved 2 2, .done, .quiet] :=
  ⟨fun _ _ _ => rfl, _, _, Fc.exec_run rfl, rfl⟩

/-! ## Progress -/

/-- An upper bound for the number of steps a link still takes. -/
def FcLink.work (env : FcEnv) (i : Nat) (l : FcLink) : Nat := match l.ph with
  | .idle => 0
  | .getAsked => 2 + env.part l.f i
  | .putAsked => 3 + 2 * env.n + env.len l.f
  | .putOffered r => 2 + r
  | .getting r => 1 + r
  | .putting r => 1 + r

/-- An upper bound for the number of steps a file of the list takes. -/
def FcEnv.cost (env : FcEnv) (r : FileReq) : Nat := 6 + 2 * env.n + env.len r.f

/-- An upper bound for the number of steps until everything is done. -/
def Fc.work (env : FcEnv) (s : Fc) : Nat :=
  (s.list.map env.cost).sum + FcLink.sumFrom (FcLink.work env) 0 s.links + s.calls + (if s.timer then 3 else 0) + 2 * s.spin

theorem FcLink.askFrom_work (env : FcEnv) (r : FileReq) {i : Nat} {ls : List FcLink} (h : i + ls.length = env.n) :
    FcLink.sumFrom (FcLink.work env) i (FcLink.askFrom env r i ls).1 ≤ FcLink.sumFrom (FcLink.work env) i ls + (if r.put then (if i = 0 then 3 + 2 * env.n + env.len r.f else 0) else 2 * ls.length + FcLink.sumFrom (fun j _ => env.part r.f j) i ls) := by
  induction ls generalizing i with
  | nil => simp [FcLink.askFrom, FcLink.sumFrom]
  | cons l ls ih =>
    have hh := ih (i := i + 1) (by simp at h; omega)
    simp only [FcLink.askFrom, FcLink.sumFrom, FcLink.ask, List.length_cons]
    obtain ⟨put, f⟩ := r
    cases put with
    | true =>
      simp only [if_true, Nat.add_eq_zero_iff, Nat.succ_ne_self, and_false, if_false] at hh ⊢
      by_cases hi : i = 0
      · simp only [if_pos hi]
        split
        · simp only [FcLink.work]; omega
        · simp only; omega
      · simp only [if_neg hi]; omega
    | false =>
      simp only [Bool.false_eq_true, if_false] at hh ⊢
      split
      · split
        · simp only [FcLink.work]; omega
        · simp only; omega
      · simp only; omega

theorem FcLink.askFrom_length (env : FcEnv) (r : FileReq) (i : Nat) (ls : List FcLink) : (FcLink.askFrom env r i ls).1.length = ls.length := by
  induction ls generalizing i with
  | nil => rfl
  | cons l ls ih => simp [FcLink.askFrom, ih]

theorem FcLink.askFrom_cost (env : FcEnv) (r : FileReq) {ls : List FcLink} (h : ls.length = env.n) :
    FcLink.sumFrom (FcLink.work env) 0 (FcLink.askFrom env r 0 ls).1 + 3 ≤ FcLink.sumFrom (FcLink.work env) 0 ls + env.cost r := by
  have h1 := FcLink.askFrom_work env r (i := 0) (ls := ls) (by omega)
  have h2 := FcLink.sum_parts env r.f (i := 0) (ls := ls) (by omega)
  simp only [Nat.mul_zero, Nat.sub_zero] at h2
  simp only [FcEnv.cost]
  split at h1
  · simp only [if_true] at h1; omega
  · omega

theorem Fc.takeNext_work (env : FcEnv) {ls : List FcLink} (h : ls.length = env.n) (rs : List FileReq) :
    (Fc.takeNext env ls rs).2.1.length = env.n ∧
    ((Fc.takeNext env ls rs).2.2.1.map env.cost).sum + FcLink.sumFrom (FcLink.work env) 0 (Fc.takeNext env ls rs).2.1 + (if (Fc.takeNext env ls rs).2.2.2 then 3 else 0) ≤ (rs.map env.cost).sum + FcLink.sumFrom (FcLink.work env) 0 ls := by
  induction rs generalizing ls with
  | nil => exact ⟨h, by simp [Fc.takeNext]⟩
  | cons r rs ih =>
    have h1 := FcLink.askFrom_cost env r h
    have h2 := FcLink.askFrom_length env r 0 ls
    simp only [Fc.takeNext, List.map_cons, List.sum_cons]
    split
    · exact ⟨by rw [h2, h], by simp only [if_true]; omega⟩
    · have h3 := ih (ls := (FcLink.askFrom env r 0 ls).1) (by rw [h2, h])
      exact ⟨h3.1, by simp only; omega⟩

theorem FcLink.offer_work (env : FcEnv) {f i : Nat} {ls : List FcLink} :
    FcLink.sumFrom (FcLink.work env) i (FcLink.offerFrom env f i ls) ≤ 2 * ls.length + FcLink.sumFrom (fun j _ => env.part f j) i ls := by
  induction ls generalizing i with
  | nil => exact Nat.le_refl _
  | cons l ls ih =>
    have := ih (i := i + 1)
    simp only [FcLink.offerFrom, FcLink.sumFrom, List.length_cons]
    split <;> simp only [FcLink.work] <;> omega

/-- What the user or the network does, and timer calls which find nothing to do. -/
def Fc.own (s : Fc) : FcAct → Bool
  | .add _ => false
  | .lose _ => false
  | .tick => s.isEnd || (match s.size with | none => false | some n => decide (n ≤ s.moved))
  | _ => true

/-- One link goes on. -/
theorem Fc.link_work {env : FcEnv} {s : Fc} {i : Nat} {l x : FcLink} (hl : s.links[i]? = some l) (h : x.work env i < l.work env i) {t : Fc} (h1 : t.links = s.links.set i x) (h2 : t.list = s.list) (h3 : t.calls = s.calls) (h4 : t.timer = s.timer) (h5 : t.spin = s.spin) : t.work env < s.work env := by
  have := FcLink.sumFrom_set (FcLink.work env) (i := 0) x hl
  simp only [Nat.zero_add] at this
  simp only [Fc.work, h1, h2, h3, h4, h5]
  omega

theorem Fc.chunk_work {env : FcEnv} {s s' : Fc} {i rest : Nat} {l : FcLink} {good : Bool} {es : List FcEv} (hl : s.links[i]? = some l) (hw : 2 + rest = l.work env i ∨ (1 + rest = l.work env i ∧ 0 < rest)) (hs : s.readChunk i l rest good = (s', es)) : s'.work env < s.work env ∧ s'.links.length = s.links.length := by
  simp only [Fc.readChunk] at hs
  split at hs <;> cases hs <;> refine ⟨Fc.link_work hl ?_ rfl rfl rfl rfl rfl, by simp⟩ <;> rcases hw with hw | hw <;> (first | rw [← hw] | rw [← hw.1]) <;> simp only [FcLink.work, FcLink.transEnd, maxTransfer] <;> omega

theorem Fc.step_work {env : FcEnv} {s s' : Fc} {a : FcAct} {es : List FcEv} (h : s.links.length = env.n) (ho : s.own a = true) (hs : s.step env a = some (s', es)) : s'.work env < s.work env := by
  cases a with
  | add rs => cases ho
  | lose i => cases ho
  | enter =>
    simp only [Fc.step] at hs
    split at hs
    · cases hs
    · split at hs
      · cases hs; simp only [Fc.work]; omega
      · rename_i ht
        have hw := (Fc.takeNext_work env h s.list).2
        have e : s'.links = (Fc.takeNext env s.links s.list).2.1 ∧ s'.list = (Fc.takeNext env s.links s.list).2.2.1 ∧ s'.timer = (Fc.takeNext env s.links s.list).2.2.2 ∧ s'.calls = s.calls - 1 ∧ s'.spin = s.spin := by
          split at hs <;> cases hs <;> exact ⟨rfl, rfl, rfl, rfl, rfl⟩
        simp only [Fc.work, e.1, e.2.1, e.2.2.1, e.2.2.2.1, e.2.2.2.2]
        rw [if_neg ht]
        omega
  | tick =>
    simp only [Fc.step] at hs
    simp only [Fc.own] at ho
    split at hs
    · cases hs
    · rename_i ht
      simp only [Bool.not_eq_false] at ht
      split at hs
      · rename_i hz
        rw [hz] at ho
        simp only [Bool.or_false] at ho
        rw [if_pos ho] at hs
        cases hs; simp only [Fc.work, ht, if_true, Bool.false_eq_true, if_false]; omega
      · rename_i n hz
        rw [hz] at ho
        simp only [Bool.or_eq_true, decide_eq_true_eq] at ho
        split at hs
        · rename_i hm
          rw [if_pos (by rcases ho with ho | ho; exact ho; omega)] at hs
          cases hs; simp only [Fc.work, ht, if_true, Bool.false_eq_true, if_false]; omega
        · cases hs; simp only [Fc.work, ht, if_true, Bool.false_eq_true, if_false]; omega
  | spun =>
    simp only [Fc.step] at hs
    split at hs <;> cases hs
    simp only [Fc.work]; omega
  | info i ok =>
    simp only [Fc.step] at hs
    split at hs
    · rename_i l hl
      split at hs
      · rename_i hg
        split at hs
        · cases hs; exact Fc.link_work hl (by simp [FcLink.work, FcLink.transEnd, hg.1] <;> omega) rfl rfl rfl rfl rfl
        · cases hs
          exact Fc.link_work (x := if env.part l.f i > 0 then { l with ph := .getting (env.part l.f i) } else l.transEnd) hl (by by_cases hq : env.part l.f i > 0 <;> simp [FcLink.work, FcLink.transEnd, hg.1, hq] <;> omega) rfl rfl rfl rfl rfl
      · cases hs
    · cases hs
  | bytes i k =>
    simp only [Fc.step] at hs
    split at hs
    · rename_i l hl
      split at hs
      · rename_i rest hr
        split at hs <;> cases hs
        exact Fc.link_work (x := { l with ph := .getting (rest - k) }) hl (by simp only [FcLink.work, hr]; omega) rfl rfl rfl rfl rfl
      · cases hs
    · cases hs
  | over i =>
    simp only [Fc.step] at hs
    split at hs
    · rename_i l hl
      split at hs
      · rename_i hg; cases hs; exact Fc.link_work hl (by simp [FcLink.work, FcLink.transEnd, hg.1] <;> omega) rfl rfl rfl rfl rfl
      · cases hs
    · cases hs
  | trunc i ok =>
    simp only [Fc.step] at hs
    split at hs
    · rename_i l hl
      split at hs
      · rename_i hg
        split at hs
        · cases hs; exact Fc.link_work hl (by simp [FcLink.work, FcLink.transEnd, hg.1] <;> omega) rfl rfl rfl rfl rfl
        · cases hs
          have h1 := FcLink.offer_work env (f := l.f) (i := 0) (ls := s.links)
          have h2 := FcLink.sum_parts env l.f (i := 0) (ls := s.links) (by omega)
          have h3 : l.work env (0 + i) ≤ FcLink.sumFrom (FcLink.work env) 0 s.links := FcLink.le_sumFrom (FcLink.work env) hl
          simp only [Nat.mul_zero, Nat.sub_zero] at h2
          have h4 : l.work env (0 + i) = 3 + 2 * env.n + env.len l.f := by simp only [FcLink.work, hg.1]
          simp only [Fc.work]
          omega
      · cases hs
    · cases hs
  | putReply i ok good =>
    simp only [Fc.step] at hs
    split at hs
    · rename_i l hl
      split at hs
      · rename_i rest hr
        split at hs
        · cases hs
        split at hs
        · cases hs; exact Fc.link_work hl (by simp [FcLink.work, FcLink.transEnd, hr] <;> omega) rfl rfl rfl rfl rfl
        · simp only [Option.some.injEq] at hs; exact (Fc.chunk_work hl (.inl (by simp [FcLink.work, hr])) hs).1
      · cases hs
    · cases hs
  | sent i good =>
    simp only [Fc.step] at hs
    split at hs
    · rename_i l hl
      split at hs
      · rename_i rest hr
        split at hs
        · cases hs
        split at hs
        · cases hs; exact Fc.link_work hl (by simp [FcLink.work, FcLink.transEnd, hr] <;> omega) rfl rfl rfl rfl rfl
        · simp only [Option.some.injEq] at hs; exact (Fc.chunk_work hl (.inr ⟨by simp [FcLink.work, hr], by omega⟩) hs).1
      · cases hs
    · cases hs

/-- What an action other than the loss of a connection keeps: the number of links, and no link is lost. -/
theorem Fc.step_kept {env : FcEnv} {s s' : Fc} {a : FcAct} {es : List FcEv} (h : s.links.length = env.n ∧ ∀ l ∈ s.links, l.stuck = false) (hp : s.noLoss a = true) (hs : s.step env a = some (s', es)) :
    s'.links.length = env.n ∧ ∀ l ∈ s'.links, l.stuck = false := by
  have set1 : ∀ {i : Nat} {l x : FcLink}, s.links[i]? = some l → x.stuck = l.stuck → (s.links.set i x).length = env.n ∧ ∀ y ∈ s.links.set i x, y.stuck = false := by
    intro i l x hl hx
    refine ⟨by simpa using h.1, fun y hy => ?_⟩
    rcases List.mem_or_eq_of_mem_set hy with hy | rfl
    · exact h.2 y hy
    · rw [hx]; exact h.2 l (List.mem_of_getElem? hl)
  have ask : ∀ (r : FileReq) (i : Nat) (ls : List FcLink), (∀ l ∈ ls, l.stuck = false) → ∀ l ∈ (FcLink.askFrom env r i ls).1, l.stuck = false := by
    intro r i ls
    induction ls generalizing i with
    | nil => intro _ l hl; cases hl
    | cons x ls ih =>
      intro hx l hl
      simp only [FcLink.askFrom, List.mem_cons] at hl
      rcases hl with rfl | hl
      · have := hx x (by simp)
        simp only [FcLink.ask]
        (repeat' split) <;> exact this
      · exact ih _ (fun l hl => hx l (by simp [hl])) l hl
  have take : ∀ (rs : List FileReq) (ls : List FcLink), (∀ l ∈ ls, l.stuck = false) → ∀ l ∈ (Fc.takeNext env ls rs).2.1, l.stuck = false := by
    intro rs
    induction rs with
    | nil => intro ls hls; exact hls
    | cons r rs ih =>
      intro ls hls
      simp only [Fc.takeNext]
      split
      · exact ask r 0 ls hls
      · exact ih _ (ask r 0 ls hls)
  have offer : ∀ (f i : Nat) (ls : List FcLink), (∀ l ∈ ls, l.stuck = false) → ∀ l ∈ FcLink.offerFrom env f i ls, l.stuck = false := by
    intro f i ls
    induction ls generalizing i with
    | nil => intro _ l hl; cases hl
    | cons x ls ih =>
      intro hx l hl
      simp only [FcLink.offerFrom, List.mem_cons] at hl
      rcases hl with rfl | hl
      · have := hx x (by simp)
        split <;> exact this
      · exact ih _ (fun l hl => hx l (by simp [hl])) l hl
  cases a with
  | add rs => simp only [Fc.step] at hs; cases hs; exact h
  | lose i => cases hp
  | enter =>
    simp only [Fc.step] at hs
    split at hs
    · cases hs
    split at hs
    · cases hs; exact h
    · have e : s'.links = (Fc.takeNext env s.links s.list).2.1 := by split at hs <;> cases hs <;> rfl
      rw [e]
      exact ⟨(Fc.takeNext_work env h.1 s.list).1, take s.list s.links h.2⟩
  | tick =>
    simp only [Fc.step] at hs
    (repeat' split at hs) <;> (try cases hs) <;> exact h
  | spun => simp only [Fc.step] at hs; split at hs <;> cases hs; exact h
  | info i ok =>
    simp only [Fc.step] at hs
    (repeat' split at hs) <;> cases hs <;> refine set1 (l := ?_) ?_ ?_ <;> first | assumption | rfl
  | bytes i k =>
    simp only [Fc.step] at hs
    (repeat' split at hs) <;> cases hs
    refine set1 (l := ?_) ?_ ?_ <;> first | assumption | rfl
  | over i =>
    simp only [Fc.step] at hs
    (repeat' split at hs) <;> cases hs
    refine set1 (l := ?_) ?_ ?_ <;> first | assumption | rfl
  | trunc i ok =>
    simp only [Fc.step] at hs
    (repeat' split at hs) <;> cases hs
    · refine set1 (l := ?_) ?_ ?_ <;> first | assumption | rfl
    all_goals exact ⟨by rw [FcLink.offerFrom_length]; exact h.1, offer _ _ _ h.2⟩
  | putReply i ok good =>
    simp only [Fc.step, Fc.readChunk] at hs
    (repeat' split at hs) <;> cases hs <;> refine set1 (l := ?_) ?_ ?_ <;> first | assumption | rfl
  | sent i good =>
    simp only [Fc.step, Fc.readChunk] at hs
    (repeat' split at hs) <;> cases hs <;> refine set1 (l := ?_) ?_ ?_ <;> first | assumption | rfl

/-- A link which is not idle and not lost can go on. -/
theorem Fc.link_goes {env : FcEnv} {s : Fc} (h : ∀ l ∈ s.links, l.stuck = false) (he : s.isEnd = false) : ∃ a s' es, s.own a = true ∧ s.step env a = some (s', es) := by
  have : ∃ (i : Nat) (l : FcLink), s.links[i]? = some l ∧ l.ph ≠ .idle := by
    simp only [Fc.isEnd, List.all_eq_false, decide_eq_true_eq] at he
    obtain ⟨l, hl, hp⟩ := he
    obtain ⟨i, hi⟩ := List.getElem?_of_mem hl
    exact ⟨i, l, hi, hp⟩
  obtain ⟨i, l, hi, hp⟩ := this
  have hs := h l (List.mem_of_getElem? hi)
  cases hq : l.ph with
  | idle => exact absurd hq hp
  | getAsked => exact ⟨.info i true, _, _, rfl, by simp only [Fc.step, hi]; rw [if_pos ⟨hq, hs⟩]; rfl⟩
  | putAsked => exact ⟨.trunc i true, _, _, rfl, by simp only [Fc.step, hi]; rw [if_pos ⟨hq, hs⟩]; rfl⟩
  | putOffered r => exact ⟨.putReply i true true, _, _, rfl, by simp only [Fc.step, hi, hq, hs]; rfl⟩
  | getting r =>
    cases r with
    | zero => exact ⟨.over i, _, _, rfl, by simp only [Fc.step, hi]; rw [if_pos ⟨hq, hs⟩]⟩
    | succ r => exact ⟨.bytes i 1, _, _, rfl, by simp only [Fc.step, hi, hq]; rw [if_pos ⟨by omega, by omega, hs⟩]⟩
  | putting r =>
    cases r with
    | zero => exact ⟨.sent i true, _, _, rfl, by simp only [Fc.step, hi, hq, hs]; rfl⟩
    | succ r => exact ⟨.sent i true, _, _, rfl, by simp only [Fc.step, hi, hq, hs]; rfl⟩

/-- **C86** (ends): as long as no connection is lost, however commands, answers and links interleave, and whatever fails: unless all files have been taken on, all links are idle and nothing is to come, file_client, the links or the server can go on,
and whatever they do (commands and timer calls which find nothing to do aside), after at most `Fc.work` steps everything is done. -/
theorem C86_ends_partial {env : FcEnv} {as bs : List FcAct} {s s' : Fc} {es fs : List FcEv} (hr : Fc.Run env Fc.noLoss (Fc.init env) as s es) :
    ((s.list = [] ∧ s.isEnd = true ∧ s.timer = false ∧ s.spin = 0 ∧ s.calls = 0) ∨ ∃ a s1 gs, s.own a = true ∧ s.step env a = some (s1, gs)) ∧
    (Fc.Run env Fc.own s bs s' fs → bs.length ≤ s.work env) := by
  have key : (s.links.length = env.n ∧ ∀ l ∈ s.links, l.stuck = false) ∧ (s.list = [] ∨ 0 < s.calls ∨ s.timer = true ∨ 0 < s.spin) := by
    induction hr with
    | nil => exact ⟨⟨by simp [Fc.init], by simp [Fc.init]⟩, .inl rfl⟩
    | snoc s1 s2 as a es es' _ hp hs ih => exact ⟨Fc.step_kept ih.1 hp hs, (Fc.step_frame hs).2 ih.2⟩
  obtain ⟨h1, h2⟩ := key
  refine ⟨?_, ?_⟩
  · cases he : s.isEnd with
    | false => exact .inr (Fc.link_goes h1.2 he)
    | true =>
      by_cases hc : 0 < s.calls
      · right
        have : ∃ r, s.step env .enter = some r := by
          simp only [Fc.step]; rw [if_neg (by omega)]; split <;> exact ⟨_, rfl⟩
        obtain ⟨r, hr⟩ := this
        exact ⟨.enter, r.1, r.2, rfl, hr⟩
      · cases ht : s.timer with
        | true =>
          right
          have : ∃ r, s.step env .tick = some r := by
            simp only [Fc.step, ht]; rw [if_neg (by simp)]; split <;> (repeat' split) <;> exact ⟨_, rfl⟩
          obtain ⟨r, hr⟩ := this
          exact ⟨.tick, r.1, r.2, by simp [Fc.own, he], hr⟩
        | false =>
          by_cases hs : 0 < s.spin
          · right; exact ⟨.spun, _, _, rfl, by simp only [Fc.step]; rw [if_pos ⟨hs, he⟩]⟩
          · left
            refine ⟨?_, rfl, rfl, by omega, by omega⟩
            rcases h2 with h2 | h2 | h2 | h2
            · exact h2
            · omega
            · rw [ht] at h2; cases h2
            · omega
  · intro h3
    have : (s'.links.length = env.n ∧ ∀ l ∈ s'.links, l.stuck = false) ∧ s'.work env + bs.length ≤ s.work env := by
      induction h3 with
      | nil => exact ⟨h1, by simp⟩
      | snoc s1 s2 bs b gs gs' _ hp hs ih =>
        have hl : s1.noLoss b = true := by cases b <;> first | rfl | cases hp
        have := Fc.step_work ih.1.1 hp hs
        exact ⟨Fc.step_kept ih.1 hl hs, by simp only [List.length_append, List.length_singleton]; omega⟩
    omega

theorem C86_ends_demo : ∃ s es, Fc.Run fcWorld Fc.noLoss (Fc.init fcWorld) [.add [⟨false, 1⟩, ⟨true, 2⟩], .enter, .info 1 true, .bytes 1 2] s es ∧ s.list = [⟨true, 2⟩] ∧ s.work fcWorld = 22 :=
  ⟨_, _, Fc.exec_run rfl, rfl, by decide⟩

/-- C86 fails when a connection is lost in the middle: the user asks for two files over one link, the connection breaks before the answer comes. Whatever happens afterwards - reconnecting included -, the second file (and any other) is never begun:
nothing resets the state of the link, so the first transfer never ends. -/
theorem C86_fails_lost : ∃ s es, Fc.Run ⟨1, fun _ _ => true, fun _ => 5⟩ Fc.any (Fc.init ⟨1, fun _ _ => true, fun _ => 5⟩) [.add [⟨false, 1⟩, ⟨false, 2⟩], .enter, .lose 0] s es ∧
    ∀ bs s' fs, Fc.Run ⟨1, fun _ _ => true, fun _ => 5⟩ Fc.any s bs s' fs → ∀ r, .began r ∉ fs ∧ .failed r ∉ fs := by
  refine ⟨_, _, Fc.exec_run rfl, ?_⟩
  intro bs s' fs hr
  have key : (s'.links = [⟨.getAsked, 1, true⟩] ∧ s'.timer = true ∧ s'.spin = 0 ∧ s'.size = none) ∧ ∀ r, .began r ∉ fs ∧ .failed r ∉ fs := by
    induction hr with
    | nil => exact ⟨⟨rfl, rfl, rfl, rfl⟩, by simp⟩
    | snoc s1 s2 bs b gs gs' _ hp hs ih =>
      obtain ⟨⟨h1, h2, h3, h4⟩, h5⟩ := ih
      have one : ∀ (i : Nat) (l : FcLink), s1.links[i]? = some l → i = 0 ∧ l = ⟨.getAsked, 1, true⟩ := by
        intro i l hl
        rw [h1] at hl
        cases i with
        | zero => simp at hl; exact ⟨rfl, hl.symm⟩
        | succ i => simp at hl
      have goal : s2.links = s1.links → s2.timer = s1.timer → s2.spin = s1.spin → s2.size = s1.size → (∀ r, FcEv.began r ∉ gs' ∧ FcEv.failed r ∉ gs') →
          (s2.links = [⟨.getAsked, 1, true⟩] ∧ s2.timer = true ∧ s2.spin = 0 ∧ s2.size = none) ∧ ∀ r, FcEv.began r ∉ gs ++ gs' ∧ FcEv.failed r ∉ gs ++ gs' := by
        intro e1 e2 e3 e4 e6
        refine ⟨⟨by rw [e1, h1], by rw [e2, h2], by rw [e3, h3], by rw [e4, h4]⟩, fun r => ⟨?_, ?_⟩⟩
        · simp only [List.mem_append, not_or]; exact ⟨(h5 r).1, (e6 r).1⟩
        · simp only [List.mem_append, not_or]; exact ⟨(h5 r).2, (e6 r).2⟩
      cases b with
      | add rs => simp only [Fc.step] at hs; cases hs; exact goal rfl rfl rfl rfl (by simp)
      | enter =>
        simp only [Fc.step, h2, if_true] at hs
        split at hs <;> cases hs
        exact goal rfl h2.symm rfl rfl (by simp)
      | tick =>
        have he : s1.isEnd = false := by simp [Fc.isEnd, h1]
        simp only [Fc.step, h4, he] at hs
        split at hs
        · cases hs
        · simp at hs; obtain ⟨rfl, rfl⟩ := hs; exact goal rfl rfl rfl rfl (by simp)
      | spun => simp only [Fc.step, h3] at hs; simp at hs
      | lose i =>
        simp only [Fc.step] at hs
        split at hs
        · rename_i l hl
          obtain ⟨rfl, rfl⟩ := one i l hl
          simp at hs; obtain ⟨rfl, rfl⟩ := hs
          exact goal (by simp [h1]) rfl rfl rfl (by simp)
        · cases hs
      | info i ok =>
        simp only [Fc.step] at hs
        split at hs
        · rename_i l hl; obtain ⟨rfl, rfl⟩ := one i l hl; simp at hs
        · cases hs
      | bytes i k =>
        simp only [Fc.step] at hs
        split at hs
        · rename_i l hl; obtain ⟨rfl, rfl⟩ := one i l hl; simp at hs
        · cases hs
      | over i =>
        simp only [Fc.step] at hs
        split at hs
        · rename_i l hl; obtain ⟨rfl, rfl⟩ := one i l hl; simp at hs
        · cases hs
      | trunc i ok =>
        simp only [Fc.step] at hs
        split at hs
        · rename_i l hl; obtain ⟨rfl, rfl⟩ := one i l hl; simp at hs
        · cases hs
      | putReply i ok good =>
        simp only [Fc.step] at hs
        split at hs
        · rename_i l hl; obtain ⟨rfl, rfl⟩ := one i l hl; simp at hs
        · cases hs
      | sent i good =>
        simp only [Fc.step] at hs
        split at hs
        · rename_i l hl; obtain ⟨rfl, rfl⟩ := one i l hl; simp at hs
        · cases hs
  exact key.2

/-- C86 fails for a command given right after "100%": the last link has not seen yet that its part is complete, the timer is cancelled already, so the command gets to the links; the link which is not idle refuses, and the file, which could be opened, is dropped as failed. -/
theorem C86_fails_command : ∃ s es, Fc.Run ⟨1, fun _ _ => true, fun _ => 5⟩ Fc.any (Fc.init ⟨1, fun _ _ => true, fun _ => 5⟩) [.add [⟨false, 1⟩], .enter, .info 0 true, .bytes 0 5, .tick, .add [⟨false, 2⟩], .enter] s es ∧
    .failed ⟨false, 2⟩ ∈ es ∧ s.list = [] :=
  ⟨_, _, Fc.exec_run rfl, by decide, rfl⟩

/-- C86 fails when some links can open a file and others cannot (too many open files, for example): the links which could have been told already and are not idle any more, so that all the other files of the list are dropped as well. -/
theorem C86_fails_some : ∃ s es, Fc.Run ⟨2, fun f i => decide (f ≠ 1 ∨ i = 0), fun _ => 5⟩ Fc.noCommand (Fc.init ⟨2, fun f i => decide (f ≠ 1 ∨ i = 0), fun _ => 5⟩) [.add [⟨false, 1⟩, ⟨false, 2⟩, ⟨true, 3⟩], .enter] s es ∧
    es = [.given [⟨false, 1⟩, ⟨false, 2⟩, ⟨true, 3⟩], .failed ⟨false, 1⟩, .failed ⟨false, 2⟩, .failed ⟨true, 3⟩] ∧ s.isEnd = false :=
  ⟨_, _, Fc.exec_run rfl, by decide, by decide⟩

end StAsio
