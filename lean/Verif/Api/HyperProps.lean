import Verif.Api.Hyper

/-!
C76: the network task carries the messages of each stream in order, closes each stream once, and the two tasks do not stop each other.
-/
namespace Verif.Hyper

/-! ### Invariant -/

/-- The stream the network task works on. -/
def Net.on : Net → Option Nat
  | .connecting i | .serving i | .toBody i _ | .toApi i _ | .close i => some i
  | _ => none

/-- Taken from the handle's channel but not given to the body. -/
def Net.out : Net → List Nat
  | .toBody _ d => [d]
  | _ => []

/-- Taken from the response but not given to the api task. -/
def Net.pend : Net → List Up
  | .toApi _ d => [.data d]
  | _ => []

def outOf : Option Ev → List Nat
  | some (.data d) => [d]
  | _ => []

structure Fresh (x : Str) : Prop where
  sent : x.sent = []
  taken : x.taken = []
  body : x.body = none
  frames : x.frames = []
  got : x.got = []
  up : x.up = []

structure Ok (x : Str) : Prop where
  out : ∃ lost, x.sent = x.taken ++ x.body.toList ++ lost
  inn : ∃ lost, x.frames.map Up.data ++ [.closed] = x.got ++ x.up ++ lost

structure Inv (s : St) : Prop where
  late : ∀ j, s.cur < j → Fresh (s.str j)
  begins : ∀ h, s.api = .starting h → Fresh (s.str s.cur)
  startq : ∀ k, s.inq = some (.start k) → s.net.gone = true ∨ (k = s.cur ∧ Fresh (s.str s.cur) ∧ ∃ h, s.api = .active [h] false)
  on : ∀ j, s.net.on = some j → (j = s.cur ∧ (∀ h, s.api ≠ .starting h) ∧ ∀ k, s.inq ≠ some (.start k)) ∨
    (j + 1 = s.cur ∧ ((∃ h, s.api = .starting h) ∨ s.inq = some (.start s.cur)))
  each : ∀ j, Ok (s.str j)
  onOut : ∀ j, s.net.on = some j → s.net ≠ .close j →
    (s.str j).sent = (s.str j).taken ++ (s.str j).body.toList ++ s.net.out ++ outOf s.inq
  onIn : ∀ j, s.net.on = some j → (s.str j).frames.map Up.data = (s.str j).got ++ (s.str j).up ++ s.net.pend

theorem Fresh.ok {x : Str} (h : Fresh x) : Ok x := by
  obtain ⟨h1, h2, h3, h4, h5, h6⟩ := h
  constructor
  · exact ⟨[], by simp [h1, h2, h3]⟩
  · exact ⟨[.closed], by simp [h4, h5, h6]⟩

theorem fresh_new : Fresh {} := ⟨rfl, rfl, rfl, rfl, rfl, rfl⟩

theorem set_str (s : St) (i : Nat) (x : Str) (j : Nat) : (s.set i x).str j = if j = i then x else s.str j := rfl

/-- A stream changes only in ways that keep it fresh if it was, and keep what the invariant says of it. -/
structure Same (x y : Str) : Prop where
  sent : y.sent = x.sent
  taken : y.taken ++ y.body.toList = x.taken ++ x.body.toList
  frames : y.frames = x.frames
  got : y.got ++ y.up = x.got ++ x.up

theorem Same.ok {x y : Str} (h : Same x y) (hx : Ok x) : Ok y := by
  obtain ⟨l, hl⟩ := hx.out
  obtain ⟨m, hm⟩ := hx.inn
  exact ⟨⟨l, by rw [h.sent, h.taken, hl]⟩, ⟨m, by rw [h.frames, h.got, hm]⟩⟩

theorem Same.fresh {x y : Str} (h : Same x y) (hx : Fresh x) : Fresh y := by
  obtain ⟨h1, h2, h3, h4, h5, h6⟩ := hx
  have ht := h.taken
  have hg := h.got
  rw [h2, h3] at ht
  rw [h5, h6] at hg
  simp only [Option.toList_none, List.append_nil, List.append_eq_nil_iff, Option.toList_eq_nil_iff] at ht hg
  exact ⟨h.sent.trans h1, ht.1, ht.2, h.frames.trans h4, hg.1, hg.2⟩

theorem Same.refl (x : Str) : Same x x := ⟨rfl, rfl, rfl, rfl⟩

/-- Streams change as `Same`; the rest stays. -/
theorem Inv.same {s : St} (h : Inv s) (i : Nat) (y : Str) (hy : Same (s.str i) y) : Inv (s.set i y) := by
  have hs : ∀ j, Same (s.str j) ((s.set i y).str j) := by
    intro j
    rw [set_str]
    split
    · subst j; exact hy
    · exact .refl _
  refine ⟨fun j hj => (hs j).fresh (h.late j hj), fun k hk => (hs _).fresh (h.begins k hk), fun k hk => ?_, h.on, fun j => (hs j).ok (h.each j), fun j hj hc => ?_,
    fun j hj => ?_⟩
  · rcases h.startq k hk with g | ⟨a, b, c⟩
    · exact .inl g
    · exact .inr ⟨a, (hs _).fresh b, c⟩
  · have := h.onOut j hj hc
    rw [(hs j).sent, (hs j).taken]
    exact this
  · have := h.onIn j hj
    rw [(hs j).frames, (hs j).got]
    exact this

theorem Inv.dropRx {s : St} (h : Inv s) : Inv s.dropRx := h.same _ _ ⟨rfl, rfl, rfl, rfl⟩

/-- The api task goes to a state in which no stream is being started. -/
theorem Inv.api {s : St} (h : Inv s) (a : Api) (t : Bool) (ha : ∀ k, a ≠ .starting k) (hold : ∀ k, s.api = .starting k → s.net.gone = true)
    (hq : ∀ k, s.inq = some (.start k) → s.net.gone = true) : Inv { s with api := a, tx := t } := by
  refine ⟨h.late, fun k hk => absurd hk (ha k), fun k hk => ?_, fun j hj => ?_, h.each, h.onOut, h.onIn⟩
  · exact .inl (hq k hk)
  · rcases h.on j hj with ⟨x, _, y⟩ | ⟨x, ⟨k, hk⟩ | y⟩
    · exact .inl ⟨x, ha, y⟩
    · have := hold k hk
      have hj : s.net.on = some j := hj
      revert this hj
      cases s.net <;> simp [Net.gone, Net.on]
    · exact .inr ⟨x, .inr y⟩

theorem gone_on {n : Net} (h : n.gone = true) : n.on = none := by
  cases n <;> simp_all [Net.gone, Net.on]

/-- The network task ends. -/
theorem Inv.fin {s : St} (h : Inv s) (n : Net) (q : Option Ev) (hn : n.gone = true) (hq : q = none ∨ q = s.inq) :
    Inv { s with net := n, inq := q } := by
  have hno : ∀ j, n.on ≠ some j := fun j => by rw [gone_on hn]; simp
  refine ⟨h.late, h.begins, fun k hk => ?_, fun j hj => absurd hj (hno j), h.each, fun j hj => absurd hj (hno j), fun j hj => absurd hj (hno j)⟩
  rcases hq with rfl | rfl
  · cases hk
  · exact .inl hn

/-- In a state that waits with nothing to send, no stream is being started. -/
theorem Inv.noStart {s : St} (h : Inv s) (hne : ∀ k, s.api ≠ .active [k] false) : ∀ k, s.inq = some (.start k) → s.net.gone = true := by
  intro k hk
  rcases h.startq k hk with hg | ⟨_, _, x, hx⟩
  · exact hg
  · exact absurd hx (hne x)

theorem Inv.init (hello : Nat) : Inv (St.init hello) :=
  ⟨fun _ _ => fresh_new, fun _ _ => fresh_new, fun k hk => (by cases hk), fun j hj => (by cases hj), fun _ => fresh_new.ok,
    fun j hj => (by cases hj), fun j hj => (by cases hj)⟩

theorem Inv.send {s s' : St} (h : Inv s) (hs : s.send = some s') : Inv s' := by
  unfold St.send at hs
  split at hs
  · rename_i hello ha
    split at hs
    · rename_i hg
      cases hs
      exact Inv.api (s := s.dropRx) h.dropRx _ _ (by simp) (fun k _ => hg) (fun _ _ => hg)
    · rename_i hg
      split at hs
      · cases hs
      · rename_i hq
        cases hs
        have hq : s.inq = none := by simpa using hq
        refine ⟨h.late, fun k hk => (by simp at hk), fun k hk => ?_, fun j hj => ?_, h.each, fun j hj hc => ?_, h.onIn⟩
        · simp only [Option.some.injEq, Ev.start.injEq] at hk
          exact .inr ⟨hk.symm, h.begins _ ha, _, rfl⟩
        · rcases h.on j hj with ⟨_, x, _⟩ | ⟨x, _⟩
          · exact absurd ha (x _)
          · exact .inr ⟨x, .inr rfl⟩
        · have := h.onOut j hj hc
          rw [hq] at this
          exact this
  · rename_i d l b ha
    split at hs
    · rename_i hg
      cases hs
      exact Inv.api (s := s.dropRx) h.dropRx _ _ (by simp) (fun k _ => hg) (fun _ _ => hg)
    · rename_i hg
      split at hs
      · cases hs
      · rename_i hq
        cases hs
        have hq : s.inq = none := by simpa using hq
        refine ⟨fun j hj => ?_, fun k hk => (by simp at hk), fun k hk => by simp at hk, fun j hj => ?_, fun j => ?_, fun j hj hc => ?_, fun j hj => ?_⟩
        · have hj : s.cur < j := hj
          simp only [set_str]
          rw [if_neg (by omega)]
          exact h.late j hj
        · rcases h.on j hj with ⟨x, _, _⟩ | ⟨x, ⟨k, hk⟩ | y⟩
          · exact .inl ⟨x, by simp, by simp⟩
          · rw [ha] at hk; cases hk
          · rw [hq] at y; cases y
        · simp only [set_str]
          split
          · obtain ⟨⟨x, hx⟩, hi⟩ := h.each s.cur
            exact ⟨⟨x ++ [d], by simp [hx]⟩, hi⟩
          · exact h.each j
        · have hjc : j = s.cur := by
            rcases h.on j hj with ⟨x, _, _⟩ | ⟨x, ⟨k, hk⟩ | y⟩
            · exact x
            · rw [ha] at hk; cases hk
            · rw [hq] at y; cases y
          have := h.onOut _ hj hc
          rw [hq, hjc] at this
          simp only [outOf, List.append_nil] at this
          rw [hjc]
          simp only [set_str, if_true, outOf]
          rw [this]
          rfl
        · have := h.onIn j hj
          simp only [set_str]
          split
          · rename_i hjc; subst hjc; exact this
          · exact this
  · cases hs

theorem Inv.recv {s s' : St} {r : React} (h : Inv s) (hs : s.recv r = some s') : Inv s' := by
  unfold St.recv at hs
  split at hs
  · rename_i b ha
    have hns := h.noStart (by rw [ha]; simp)
    split at hs
    · cases hs
    · rename_i d q hu
      cases hs
      have h1 : Inv (s.set s.cur { s.str s.cur with up := q, got := (s.str s.cur).got ++ [.data d] }) := by
        refine h.same _ _ ⟨rfl, rfl, rfl, ?_⟩
        simp [hu]
      revert h1
      generalize hs1 : s.set s.cur { s.str s.cur with up := q, got := (s.str s.cur).got ++ [.data d] } = s1
      have ha1 : s1.api = .active [] b := by rw [← hs1]; exact ha
      have hn1 : ∀ k, s1.inq = some (.start k) → s1.net.gone = true := by rw [← hs1]; exact hns
      intro h1
      cases r with
      | more => exact h1
      | reply out => exact h1.api _ _ (by simp) (by rw [ha1]; simp) hn1
      | refuse =>
        simp only [St.react]
        split
        · exact h1
        · exact h1.api _ _ (by simp) (by rw [ha1]; simp) hn1
      | unauth =>
        simp only [St.react]
        split
        · exact h1
        · exact Inv.api (s := s1.dropRx) h1.dropRx _ _ (by simp) (fun k hk => by have : s1.api = _ := hk; rw [ha1] at this; cases this) hn1
      | fail =>
        exact Inv.api (s := s1.dropRx) h1.dropRx _ _ (by simp) (fun k hk => by have : s1.api = _ := hk; rw [ha1] at this; cases this) hn1
    · rename_i q hu
      cases hs
      have h1 : Inv (s.set s.cur { s.str s.cur with up := q, got := (s.str s.cur).got ++ [.closed] }) := by
        refine h.same _ _ ⟨rfl, rfl, rfl, ?_⟩
        simp [hu]
      exact Inv.api (s := s.set s.cur _) h1 _ _ (by simp) (fun k hk => by have : s.api = _ := hk; rw [ha] at this; cases this) hns
  · cases hs

theorem Inv.netRecv {s s' : St} (h : Inv s) (hs : s.netRecv = some s') : Inv s' := by
  unfold St.netRecv at hs
  split at hs
  · rename_i i hn hq
    cases hs
    have hng : ¬ s.net.gone = true := by rw [hn]; simp [Net.gone]
    obtain ⟨rfl, hf, x, hx⟩ := (h.startq i hq).resolve_left hng
    have hna : ∀ k, s.api ≠ .starting k := by rw [hx]; simp
    refine ⟨h.late, h.begins, fun k hk => (by cases hk), fun j hj => ?_, h.each, fun j hj _ => ?_, fun j hj => ?_⟩
    · simp only [Net.on, Option.some.injEq] at hj
      exact .inl ⟨hj.symm, hna, by simp⟩
    · simp only [Net.on, Option.some.injEq] at hj
      subst hj
      simp [hf.sent, hf.taken, hf.body, Net.out, outOf]
    · simp only [Net.on, Option.some.injEq] at hj
      subst hj
      simp [hf.frames, hf.got, hf.up, Net.pend]
  · rename_i d hn hq
    cases hs
    have hno : ∀ j, s.net.on ≠ some j := fun j => by rw [hn]; simp [Net.on]
    exact ⟨h.late, h.begins, fun k hk => (by cases hk), fun j hj => absurd hj (hno j), h.each, fun j hj => absurd hj (hno j), fun j hj => absurd hj (hno j)⟩
  · cases hs
    exact h.fin _ _ rfl (.inl rfl)
  · rename_i i d hn hq
    cases hs
    have hon : s.net.on = some i := by rw [hn]; rfl
    refine ⟨h.late, h.begins, fun k hk => (by cases hk), fun j hj => ?_, h.each, fun j hj _ => ?_, fun j hj => ?_⟩
    · simp only [Net.on, Option.some.injEq] at hj
      subst hj
      rcases h.on i hon with ⟨x, y, _⟩ | ⟨x, y | y⟩
      · exact .inl ⟨x, y, by simp⟩
      · exact .inr ⟨x, .inl y⟩
      · rw [hq] at y; cases y
    · simp only [Net.on, Option.some.injEq] at hj
      subst hj
      have := h.onOut i hon (by rw [hn]; simp)
      rw [hn, hq] at this
      simpa [Net.out, outOf] using this
    · simp only [Net.on, Option.some.injEq] at hj
      subst hj
      have := h.onIn i hon
      rw [hn] at this
      exact this
  · rename_i hn hq
    split at hs
    · cases hs
    · cases hs; exact h.fin _ _ rfl (.inr rfl)
  · split at hs
    · cases hs
    · cases hs; exact h.fin _ _ rfl (.inr rfl)
  · cases hs

/-- The network task goes on with the same stream; the stream itself is changed. -/
theorem Inv.netTo {s : St} (h : Inv s) (i : Nat) (n : Net) (y : Str) (hon : s.net.on = some i) (hnew : n.on = some i ∨ n = .idle)
    (hok : Ok y)
    (hout : n.on = some i → n ≠ .close i → y.sent = y.taken ++ y.body.toList ++ n.out ++ outOf s.inq)
    (hin : n.on = some i → y.frames.map Up.data = y.got ++ y.up ++ n.pend) : Inv { s.set i y with net := n } := by
  have hfr : ∀ j, j ≠ i → (s.set i y).str j = s.str j := fun j hj => by rw [set_str, if_neg hj]
  have hfi : (s.set i y).str i = y := by rw [set_str, if_pos rfl]
  have hic : i = s.cur ∨ i + 1 = s.cur := by
    rcases h.on i hon with ⟨x, _⟩ | ⟨x, _⟩
    · exact .inl x
    · exact .inr x
  have hon' : ∀ j, n.on = some j → j = i := by
    intro j hj
    rcases hnew with hnew | hnew
    · rw [hnew] at hj; cases hj; rfl
    · rw [hnew] at hj; cases hj
  have hng : s.net.gone = false := by
    cases hg : s.net.gone
    · rfl
    · rw [gone_on hg] at hon; cases hon
  refine ⟨fun j hj => ?_, fun k hk => ?_, fun k hk => ?_, fun j hj => ?_, fun j => ?_, fun j hj hc => ?_, fun j hj => ?_⟩
  · have hj : s.cur < j := hj
    show Fresh ((s.set i y).str j)
    rw [hfr j (by omega)]
    exact h.late j hj
  · have hk : s.api = .starting k := hk
    show Fresh ((s.set i y).str s.cur)
    rcases h.on i hon with ⟨x, z, _⟩ | ⟨x, _⟩
    · exact absurd hk (z k)
    · rw [hfr _ (by omega)]
      exact h.begins k hk
  · rcases h.startq k hk with hg | ⟨x, z, w, hw⟩
    · rw [hng] at hg; cases hg
    · refine .inr ⟨x, ?_, w, hw⟩
      show Fresh ((s.set i y).str s.cur)
      rcases h.on i hon with ⟨_, _, u⟩ | ⟨u, _⟩
      · exact absurd hk (u k)
      · rw [hfr _ (by omega)]
        exact z
  · have := hon' j hj
    subst this
    exact h.on _ hon
  · show Ok ((s.set i y).str j)
    by_cases hj : j = i
    · subst hj; rw [hfi]; exact hok
    · rw [hfr j hj]; exact h.each j
  · have := hon' j hj
    subst this
    show ((s.set j y).str j).sent = _
    simp only [hfi]
    exact hout hj hc
  · have := hon' j hj
    subst this
    simp only [hfi]
    exact hin hj

theorem Inv.netUp {s s' : St} (h : Inv s) (hs : s.netUp = some s') : Inv s' := by
  unfold St.netUp at hs
  split at hs
  · rename_i i d hn
    have hon : s.net.on = some i := by rw [hn]; rfl
    split at hs
    · split at hs
      · cases hs
        have h1 := h.onOut i hon (by rw [hn]; simp)
        have h2 := h.onIn i hon
        rw [hn] at h1 h2
        refine h.netTo i _ _ hon (.inl rfl) ⟨?_, ?_⟩ (fun _ _ => ?_) (fun _ => ?_)
        · exact (h.each i).out
        · exact ⟨[.closed], by simp [h2, Net.pend]⟩
        · exact h1
        · simpa [Net.pend] using h2
      · cases hs
    · cases hs
      exact h.fin _ _ rfl (.inr rfl)
  · rename_i i hn
    have hon : s.net.on = some i := by rw [hn]; rfl
    split at hs
    · split at hs
      · cases hs
        have h2 := h.onIn i hon
        rw [hn] at h2
        refine h.netTo i _ _ hon (.inr rfl) ⟨?_, ?_⟩ (fun hx => by cases hx) (fun hx => by cases hx)
        · exact (h.each i).out
        · exact ⟨[], by simp [h2, Net.pend]⟩
      · cases hs
    · cases hs
      exact h.fin _ _ rfl (.inr rfl)
  · cases hs

theorem set_self (s : St) (i : Nat) : s.set i (s.str i) = s := by
  unfold St.set
  congr
  funext j
  split
  · rename_i h; rw [h]
  · rfl

theorem Inv.netBody {s s' : St} (h : Inv s) (hs : s.netBody = some s') : Inv s' := by
  unfold St.netBody at hs
  split at hs
  · rename_i i d hn
    have hon : s.net.on = some i := by rw [hn]; rfl
    have h1 := h.onOut i hon (by rw [hn]; simp)
    have h2 := h.onIn i hon
    rw [hn] at h1 h2
    split at hs
    · split at hs
      · cases hs
      · rename_i hb
        have hb : (s.str i).body = none := by simpa using hb
        rw [hb] at h1
        cases hs
        refine h.netTo i _ _ hon (.inl rfl) ⟨?_, ?_⟩ (fun _ _ => ?_) (fun _ => ?_)
        · exact ⟨outOf s.inq, by simpa [Net.out] using h1⟩
        · exact (h.each i).inn
        · simpa [Net.out] using h1
        · exact h2
    · cases hs
      have := h.netTo i (.close i) (s.str i) hon (.inl rfl) (h.each i) (fun _ hc => absurd rfl hc) (fun _ => h2)
      rw [set_self] at this
      exact this
  · cases hs

theorem Inv.step {s s' : St} {a : Act} (h : Inv s) (hs : s.step a = some s') : Inv s' := by
  cases a with
  | apiSend => exact h.send hs
  | apiRecv r => exact h.recv hs
  | apiUpload out =>
    simp only [St.step] at hs
    split at hs
    · rename_i ha
      cases hs
      exact h.api _ _ (by simp) (by rw [ha]; simp) (h.noStart (by rw [ha]; simp))
    · cases hs
  | apiDelay hello =>
    simp only [St.step] at hs
    split at hs
    · rename_i ha
      cases hs
      have h1 := h.dropRx
      have hns := h.noStart (by rw [ha]; simp)
      have hn : ∀ k, s.api ≠ .starting k := by rw [ha]; simp
      refine ⟨fun j hj => h1.late j (by have : s.cur + 1 < j := hj; show s.cur < j; omega),
        fun k _ => h1.late _ (by show s.cur < s.cur + 1; omega), fun k hk => ?_, fun j hj => ?_, h1.each, h1.onOut, h1.onIn⟩
      · exact .inl (hns k hk)
      · rcases h.on j hj with ⟨x, _⟩ | ⟨_, ⟨k, hk⟩ | y⟩
        · exact .inr ⟨by show j + 1 = s.cur + 1; omega, .inl ⟨_, rfl⟩⟩
        · exact absurd hk (hn k)
        · have := hns _ y
          have hj : s.net.on = some j := hj
          rw [gone_on this] at hj
          cases hj
    · cases hs
  | apiStop =>
    simp only [St.step] at hs
    split at hs
    all_goals first
      | (rename_i ha; cases hs
         exact Inv.api (s := s.dropRx) h.dropRx _ _ (by simp) (fun k hk => by have : s.api = _ := hk; rw [ha] at this; cases this) (h.noStart (by rw [ha]; simp)))
      | cases hs
  | netRecv => exact h.netRecv hs
  | netStop =>
    simp only [St.step] at hs
    split at hs
    · cases hs; exact h.fin _ _ rfl (.inr rfl)
    · cases hs; exact h.fin _ _ rfl (.inr rfl)
    · cases hs
  | netConn ok =>
    simp only [St.step] at hs
    split at hs
    · rename_i i hn
      cases hs
      have hon : s.net.on = some i := by rw [hn]; rfl
      have h1 := h.onOut i hon (by rw [hn]; simp)
      have h2 := h.onIn i hon
      rw [hn] at h1 h2
      have := h.netTo i (if ok then .serving i else .close i) (s.str i) hon (.inl (by cases ok <;> rfl)) (h.each i)
        (fun _ hc => by cases ok <;> first | exact h1 | exact absurd rfl hc) (fun _ => by cases ok <;> exact h2)
      rw [set_self] at this
      exact this
    · cases hs
  | netFrame f =>
    cases f with
    | none =>
      simp only [St.step] at hs
      split at hs
      · rename_i i hn
        cases hs
        have hon : s.net.on = some i := by rw [hn]; rfl
        have h2 := h.onIn i hon
        rw [hn] at h2
        have := h.netTo i (.close i) (s.str i) hon (.inl rfl) (h.each i) (fun _ hc => absurd rfl hc) (fun _ => h2)
        rw [set_self] at this
        exact this
      · cases hs
    | some d =>
      simp only [St.step] at hs
      split at hs
      · rename_i i hn
        cases hs
        have hon : s.net.on = some i := by rw [hn]; rfl
        have h1 := h.onOut i hon (by rw [hn]; simp)
        have h2 := h.onIn i hon
        rw [hn] at h1 h2
        refine h.netTo i _ _ hon (.inl rfl) ⟨(h.each i).out, ?_⟩ (fun _ _ => h1) (fun _ => ?_)
        · simp only [Net.pend, List.append_nil] at h2
          exact ⟨[.data d, .closed], by simp [h2]⟩
        · simp only [Net.pend, List.append_nil] at h2
          simp [h2, Net.pend]
      · cases hs
  | netBody => exact h.netBody hs
  | netUp => exact h.netUp hs
  | srvTake i =>
    simp only [St.step] at hs
    split at hs
    · rename_i d hb
      split at hs
      · cases hs
        exact h.same _ _ ⟨rfl, by simp [hb], rfl, rfl⟩
      · cases hs
    · cases hs
  | srvDrop i =>
    cases hs
    exact h.same _ _ ⟨rfl, rfl, rfl, rfl⟩


theorem Inv.run : ∀ {l : List Act} {s s' : St}, Inv s → s.run l = some s' → Inv s'
  | [], s, s', h, hr => by simp only [St.run, Option.some.injEq] at hr; subst hr; exact h
  | a :: l, s, s', h, hr => by
    simp only [St.run, Option.bind_eq_some_iff] at hr
    obtain ⟨u, hu, hr⟩ := hr
    exact (h.step hu).run hr

/-! ### Runs in which the server does not refuse the handshake and the network task is not shut down -/

def Act.calm : Act → Bool
  | .apiRecv .refuse | .netStop => false
  | _ => true

/-- The api task is in its loop. -/
def Api.looping : Api → Bool
  | .starting _ | .active _ _ | .backoff => true
  | _ => false

structure Calm (s : St) : Prop where
  inv : Inv s
  net : s.net ≠ .panicked
  api : s.api ≠ .panicked
  loop : s.api.looping = true → s.net ≠ .ended ∧ s.tx = true ∧ ∀ j, s.cur ≤ j → (s.str j).upAlive = true
  idle : (s.api = .backoff ∨ ∃ h, s.api = .starting h) → s.net = .idle
  start : ∀ k, s.inq = some (.start k) → s.net = .idle ∨ s.net = .ended

theorem Calm.gone {s : St} (h : Calm s) (hl : s.api.looping = true) : s.net.gone = false := by
  have h1 := h.net
  have h2 := (h.loop hl).1
  revert h1 h2
  cases s.net <;> simp [Net.gone]

/-- What the network task works on is the current stream. -/
theorem Calm.cur {s : St} (h : Calm s) {j : Nat} (hj : s.net.on = some j) : j = s.cur := by
  rcases h.inv.on j hj with ⟨x, _⟩ | ⟨_, x | x⟩
  · exact x
  · rw [h.idle (.inr x)] at hj; cases hj
  · rcases h.start _ x with y | y <;> rw [y] at hj <;> cases hj

/-- The api task is no longer in its loop. -/
theorem Calm.out {s : St} (h : Calm s) (a : Api) (t : Bool) (ha : a = .killed ∨ a = .ended) (hi : Inv { s with api := a, tx := t }) :
    Calm { s with api := a, tx := t } := by
  refine ⟨hi, h.net, ?_, fun hl => ?_, fun hb => ?_, h.start⟩
  · rcases ha with rfl | rfl <;> simp
  · rcases ha with rfl | rfl <;> cases hl
  · rcases ha with rfl | rfl <;> simp at hb

theorem Calm.dropRx {s : St} (h : Inv s) (h1 : s.net ≠ .panicked) (a : Api) (t : Bool) (ha : a = .killed ∨ a = .ended)
    (h2 : ∀ k, s.inq = some (.start k) → s.net = .idle ∨ s.net = .ended) (h3 : ∀ k, s.inq = some (.start k) → s.net.gone = true)
    (h4 : ∀ k, s.api ≠ .starting k) : Calm { s.dropRx with api := a, tx := t } := by
  have hi : Inv { s.dropRx with api := a, tx := t } := by
    refine Inv.api (s := s.dropRx) h.dropRx _ _ ?_ (fun k hk => absurd hk (h4 k)) h3
    rcases ha with rfl | rfl <;> simp
  refine ⟨hi, h1, ?_, fun hl => ?_, fun hb => ?_, h2⟩
  · rcases ha with rfl | rfl <;> simp
  · rcases ha with rfl | rfl <;> cases hl
  · rcases ha with rfl | rfl <;> simp at hb

theorem set_alive {s : St} {i : Nat} {y : Str} (hy : y.upAlive = (s.str i).upAlive) (j : Nat) :
    ((s.set i y).str j).upAlive = (s.str j).upAlive := by
  rw [set_str]
  split
  · rename_i h; rw [h, hy]
  · rfl

theorem Calm.send {s s' : St} (h : Calm s) (hs : s.send = some s') : Calm s' := by
  have hi := h.inv.send hs
  unfold St.send at hs
  split at hs
  · rename_i hello ha
    have hl : s.api.looping = true := by rw [ha]; rfl
    have hid := h.idle (.inr ⟨_, ha⟩)
    rw [if_neg (by rw [h.gone hl]; simp)] at hs
    split at hs
    · cases hs
    · cases hs
      exact ⟨hi, h.net, by simp, fun _ => h.loop hl, fun hb => by simp at hb, fun _ _ => .inl hid⟩
  · rename_i d l b ha
    have hl : s.api.looping = true := by rw [ha]; rfl
    rw [if_neg (by rw [h.gone hl]; simp)] at hs
    split at hs
    · cases hs
    · cases hs
      refine ⟨hi, h.net, by simp, fun _ => ⟨(h.loop hl).1, (h.loop hl).2.1, fun j hj => ?_⟩, fun hb => by simp at hb, fun _ hk => by cases hk⟩
      exact Eq.trans (by apply set_alive; rfl) ((h.loop hl).2.2 j hj)
  · cases hs

theorem Calm.recv {s s' : St} {r : React} (h : Calm s) (hr : r ≠ .refuse) (hs : s.recv r = some s') : Calm s' := by
  have hi := h.inv.recv hs
  unfold St.recv at hs
  split at hs
  · rename_i b ha
    have hl : s.api.looping = true := by rw [ha]; rfl
    have hns := h.inv.noStart (by rw [ha]; simp)
    split at hs
    · cases hs
    · rename_i d q hu
      have hinv : Inv (s.set s.cur { s.str s.cur with up := q, got := (s.str s.cur).got ++ [.data d] }) :=
        h.inv.same _ _ ⟨rfl, rfl, rfl, by simp [hu]⟩
      have hal := set_alive (s := s) (i := s.cur) (y := { s.str s.cur with up := q, got := (s.str s.cur).got ++ [.data d] }) rfl
      revert hs hinv hal
      generalize hs1 : s.set s.cur { s.str s.cur with up := q, got := (s.str s.cur).got ++ [.data d] } = s1
      have e1 : s1.api = s.api := by rw [← hs1]; rfl
      have e2 : s1.net = s.net := by rw [← hs1]; rfl
      have e3 : s1.inq = s.inq := by rw [← hs1]; rfl
      have e4 : s1.cur = s.cur := by rw [← hs1]; rfl
      have e5 : s1.tx = s.tx := by rw [← hs1]; rfl
      intro hs hinv hal
      have hc : Calm s1 := by
        refine ⟨hinv, by rw [e2]; exact h.net, by rw [e1]; exact h.api, fun _ => ?_, by rw [e1, e2]; exact h.idle, by rw [e3, e2]; exact h.start⟩
        rw [e2, e5, e4]
        exact ⟨(h.loop hl).1, (h.loop hl).2.1, fun j hj => (hal j).trans ((h.loop hl).2.2 j hj)⟩
      have hst : ∀ k, s1.api ≠ .starting k := by rw [e1, ha]; simp
      have hg : ∀ k, s1.inq = some (.start k) → s1.net.gone = true := by rw [e3, e2]; exact hns
      cases hs
      cases r with
      | more => exact hc
      | reply out =>
        refine ⟨hi, hc.net, by simp [St.react], fun _ => hc.loop (by rw [e1]; exact hl), fun hb => ?_, hc.start⟩
        simp [St.react] at hb
      | refuse => exact absurd rfl hr
      | unauth =>
        simp only [St.react]
        split
        · exact hc
        · exact Calm.dropRx hinv hc.net _ _ (.inl rfl) hc.start hg hst
      | fail => exact Calm.dropRx hinv hc.net _ _ (.inr rfl) hc.start hg hst
    · rename_i q hu
      cases hs
      have hoff : s.net.on = none := by
        cases hon : s.net.on with
        | none => rfl
        | some j =>
          have := h.cur hon
          subst this
          have hin := h.inv.onIn _ hon
          rw [hu] at hin
          have hm : Up.closed ∈ (s.str s.cur).frames.map Up.data := by rw [hin]; simp
          obtain ⟨d, _, hd⟩ := List.mem_map.mp hm
          cases hd
      have hid : s.net = .idle := by
        have h1 := h.net
        have h2 := (h.loop hl).1
        revert h1 h2 hoff
        cases s.net <;> simp [Net.on]
      refine ⟨hi, h.net, by simp, fun _ => ⟨(h.loop hl).1, (h.loop hl).2.1, fun j hj => ?_⟩, fun _ => hid, h.start⟩
      exact Eq.trans (by apply set_alive; rfl) ((h.loop hl).2.2 j hj)
  · cases hs

/-- The network task goes on with its stream. -/
theorem Calm.netTo {s : St} (h : Calm s) (i : Nat) (n : Net) (y : Str) (hon : s.net.on = some i) (hnew : n.on = some i ∨ n = .idle)
    (hy : y.upAlive = (s.str i).upAlive) (hi : Inv { s.set i y with net := n }) : Calm { s.set i y with net := n } := by
  have hng : n ≠ .panicked ∧ n ≠ .ended := by
    rcases hnew with hn | rfl
    · constructor <;> rintro rfl <;> cases hn
    · simp
  refine ⟨hi, hng.1, h.api, fun hl => ⟨hng.2, (h.loop hl).2.1, fun j hj => (set_alive hy j).trans ((h.loop hl).2.2 j hj)⟩, fun hb => ?_, fun k hk => ?_⟩
  · have := h.idle hb
    rw [this] at hon; cases hon
  · rcases h.start k hk with x | x <;> rw [x] at hon <;> cases hon

/-- The network task ends because the api task has left. -/
theorem Calm.fin {s : St} (h : Calm s) (hl : s.api.looping = false) (hi : Inv { s with net := .ended }) : Calm { s with net := .ended } := by
  refine ⟨hi, by simp, h.api, fun hx => ?_, fun hb => ?_, fun _ _ => .inr rfl⟩
  · have hx : s.api.looping = true := hx
    rw [hl] at hx; cases hx
  · rcases hb with hb | ⟨_, hb⟩ <;> (have hb : s.api = _ := hb; rw [hb] at hl; cases hl)

theorem Calm.dead {s : St} (h : Calm s) {i : Nat} (hon : s.net.on = some i) (hd : ¬ (s.str i).upAlive = true) : s.api.looping = false := by
  cases hl : s.api.looping with
  | false => rfl
  | true =>
    have := h.cur hon
    subst this
    exact absurd ((h.loop hl).2.2 _ (Nat.le_refl _)) hd

theorem Calm.step {s s' : St} {a : Act} (h : Calm s) (hc : a.calm = true) (hs : s.step a = some s') : Calm s' := by
  have hi := h.inv.step hs
  cases a with
  | apiSend => exact h.send hs
  | apiRecv r =>
    refine h.recv ?_ hs
    rintro rfl
    cases hc
  | apiUpload out =>
    simp only [St.step] at hs
    split at hs
    · rename_i ha
      cases hs
      exact ⟨hi, h.net, by simp, fun _ => h.loop (by rw [ha]; rfl), fun hb => by simp at hb, h.start⟩
    · cases hs
  | apiDelay hello =>
    simp only [St.step] at hs
    split at hs
    · rename_i ha
      cases hs
      have hl : s.api.looping = true := by rw [ha]; rfl
      have hid := h.idle (.inl ha)
      refine ⟨hi, h.net, by simp, fun _ => ⟨(h.loop hl).1, (h.loop hl).2.1, fun j hj => ?_⟩, fun _ => hid, fun _ _ => .inl hid⟩
      have hj : s.cur + 1 ≤ j := hj
      show ((s.set s.cur _).str j).upAlive = true
      rw [set_str, if_neg (by omega)]
      exact (h.loop hl).2.2 j (by omega)
    · cases hs
  | apiStop =>
    simp only [St.step] at hs
    split at hs
    all_goals first
      | (rename_i ha; cases hs
         exact Calm.dropRx h.inv h.net _ _ (.inr rfl) h.start (h.inv.noStart (by rw [ha]; simp)) (by rw [ha]; simp))
      | cases hs
  | netRecv =>
    simp only [St.step] at hs
    unfold St.netRecv at hs
    split at hs
    · rename_i i hn hq
      cases hs
      have hst : ∃ k, s.api = .active [k] false := by
        rcases h.inv.startq i hq with g | ⟨_, _, g⟩
        · rw [hn] at g; cases g
        · exact g
      obtain ⟨k, hst⟩ := hst
      refine ⟨hi, by simp, h.api, fun hl => ⟨by simp, (h.loop hl).2⟩, fun hb => ?_, fun _ hk => by cases hk⟩
      rcases hb with hb | ⟨_, hb⟩ <;> (have hb : s.api = _ := hb; rw [hst] at hb; cases hb)
    · cases hs
      exact ⟨hi, h.net, h.api, h.loop, h.idle, fun _ hk => by cases hk⟩
    · rename_i i k hn hq
      rcases h.start _ hq with x | x <;> rw [x] at hn <;> cases hn
    · rename_i i d hn hq
      cases hs
      refine ⟨hi, by simp, h.api, fun hl => ⟨by simp, (h.loop hl).2⟩, fun hb => ?_, fun _ hk => by cases hk⟩
      have := h.idle hb
      rw [hn] at this; cases this
    all_goals first
      | (split at hs
         · cases hs
         · rename_i ht
           cases hs
           refine h.fin ?_ hi
           cases hl : s.api.looping with
           | false => rfl
           | true => exact absurd (h.loop hl).2.1 ht)
      | cases hs
  | netStop => cases hc
  | netConn ok =>
    simp only [St.step] at hs
    split at hs
    · rename_i i hn
      have hon : s.net.on = some i := by rw [hn]; rfl
      have := h.netTo i (if ok then .serving i else .close i) (s.str i) hon (.inl (by cases ok <;> rfl)) rfl
      rw [set_self] at this
      cases hs
      exact this hi
    · cases hs
  | netFrame f =>
    cases f with
    | none =>
      simp only [St.step] at hs
      split at hs
      · rename_i i hn
        have hon : s.net.on = some i := by rw [hn]; rfl
        have := h.netTo i (.close i) (s.str i) hon (.inl rfl) rfl
        rw [set_self] at this
        cases hs
        exact this hi
      · cases hs
    | some d =>
      simp only [St.step] at hs
      split at hs
      · rename_i i hn
        have hon : s.net.on = some i := by rw [hn]; rfl
        cases hs
        exact h.netTo i _ _ hon (.inl rfl) rfl hi
      · cases hs
  | netBody =>
    simp only [St.step] at hs
    unfold St.netBody at hs
    split at hs
    · rename_i i d hn
      have hon : s.net.on = some i := by rw [hn]; rfl
      split at hs
      · split at hs
        · cases hs
        · cases hs
          exact h.netTo i _ _ hon (.inl rfl) rfl hi
      · have := h.netTo i (.close i) (s.str i) hon (.inl rfl) rfl
        rw [set_self] at this
        cases hs
        exact this hi
    · cases hs
  | netUp =>
    simp only [St.step] at hs
    unfold St.netUp at hs
    split at hs
    · rename_i i d hn
      have hon : s.net.on = some i := by rw [hn]; rfl
      split at hs
      · split at hs
        · cases hs
          exact h.netTo i _ _ hon (.inl rfl) rfl hi
        · cases hs
      · rename_i hd
        cases hs
        exact h.fin (h.dead hon hd) hi
    · rename_i i hn
      have hon : s.net.on = some i := by rw [hn]; rfl
      split at hs
      · split at hs
        · cases hs
          exact h.netTo i _ _ hon (.inr rfl) rfl hi
        · cases hs
      · rename_i hd
        cases hs
        exact h.fin (h.dead hon hd) hi
    · cases hs
  | srvTake i =>
    simp only [St.step] at hs
    split at hs
    · split at hs
      · cases hs
        exact ⟨hi, h.net, h.api, fun hl => ⟨(h.loop hl).1, (h.loop hl).2.1, fun j hj => Eq.trans (by apply set_alive; rfl) ((h.loop hl).2.2 j hj)⟩, h.idle, h.start⟩
      · cases hs
    · cases hs
  | srvDrop i =>
    cases hs
    exact ⟨hi, h.net, h.api, fun hl => ⟨(h.loop hl).1, (h.loop hl).2.1, fun j hj => Eq.trans (by apply set_alive; rfl) ((h.loop hl).2.2 j hj)⟩, h.idle, h.start⟩

theorem Calm.init (hello : Nat) : Calm (St.init hello) :=
  ⟨.init _, by simp [St.init], by simp [St.init], fun _ => ⟨by simp [St.init], rfl, fun _ _ => rfl⟩, fun _ => rfl, fun k hk => by cases hk⟩

theorem Calm.run : ∀ {l : List Act} {s s' : St}, Calm s → (∀ a ∈ l, a.calm = true) → s.run l = some s' → Calm s'
  | [], s, s', h, _, hr => by simp only [St.run, Option.some.injEq] at hr; subst hr; exact h
  | a :: l, s, s', h, hc, hr => by
    simp only [St.run, Option.bind_eq_some_iff] at hr
    obtain ⟨u, hu, hr⟩ := hr
    exact (h.step (hc a (by simp)) hu).run (fun b hb => hc b (by simp [hb])) hr


/-- A stream the network task has left is reported as closed to the api task. -/
def Told (s : St) : Prop := ∀ o b, s.api = .active o b → s.net = .idle → (∃ k, s.inq = some (.start k)) ∨ Up.closed ∈ (s.str s.cur).up

theorem Told.step {s s' : St} {a : Act} (h : Calm s) (ht : Told s) (hs : s.step a = some s') : Told s' := by
  intro o b ha hn
  cases a with
  | apiSend =>
    simp only [St.step, St.send] at hs
    split at hs
    · split at hs
      · cases hs; cases ha
      · split at hs
        · cases hs
        · cases hs; exact .inl ⟨_, rfl⟩
    · rename_i d l b' ha'
      split at hs
      · cases hs; cases ha
      · split at hs
        · cases hs
        · rename_i hq
          cases hs
          rcases ht _ _ ha' hn with ⟨k, hk⟩ | hk
          · rw [hk] at hq; simp at hq
          · right
            simpa [St.set] using hk
    · cases hs
  | apiRecv r =>
    simp only [St.step, St.recv] at hs
    split at hs
    · rename_i b' ha'
      split at hs
      · cases hs
      · rename_i d q hu
        cases hs
        have key : s.net = .idle → (∃ k, s.inq = some (.start k)) ∨ Up.closed ∈ q := by
          intro hn
          have := ht _ _ ha' hn
          rw [hu] at this
          simpa using this
        cases r <;> simp only [St.react] at ha hn ⊢ <;>
          first
          | (cases ha; done)
          | (simpa [St.set] using key hn)
          | (split at ha <;> rename_i hb
             · rw [if_pos hb] at hn ⊢
               simpa [St.set] using key hn
             · cases ha)
      · cases hs; cases ha
    · cases hs
  | apiUpload out =>
    simp only [St.step] at hs
    split at hs
    · rename_i ha'
      cases hs
      exact ht _ _ ha' hn
    · cases hs
  | apiDelay hello =>
    simp only [St.step] at hs
    split at hs
    · cases hs; cases ha
    · cases hs
  | apiStop =>
    simp only [St.step] at hs
    split at hs
    all_goals first
      | (cases hs; cases ha; done)
      | cases hs
  | netRecv =>
    simp only [St.step, St.netRecv] at hs
    split at hs
    · cases hs; cases hn
    · rename_i d hn' hq
      cases hs
      rcases ht _ _ ha hn' with ⟨k, hk⟩ | hk
      · rw [hq] at hk; cases hk
      · exact .inr hk
    · cases hs; cases hn
    · cases hs; cases hn
    all_goals first
      | (split at hs
         · cases hs
         · cases hs; cases hn)
      | cases hs
  | netStop =>
    simp only [St.step] at hs
    split at hs
    all_goals (cases hs; try cases hn)
  | netConn ok =>
    simp only [St.step] at hs
    split at hs
    · cases hs; cases ok <;> cases hn
    · cases hs
  | netFrame f =>
    cases f <;> simp only [St.step] at hs <;> split at hs
    all_goals (cases hs; try cases hn)
  | netBody =>
    simp only [St.step, St.netBody] at hs
    split at hs
    · split at hs
      · split at hs
        · cases hs
        · cases hs; cases hn
      · cases hs; cases hn
    · cases hs
  | netUp =>
    simp only [St.step, St.netUp] at hs
    split at hs
    · split at hs
      · split at hs
        · cases hs; cases hn
        · cases hs
      · cases hs; cases hn
    · rename_i i hn'
      have := h.cur (j := i) (by rw [hn']; rfl)
      subst this
      split at hs
      · split at hs
        · cases hs
          right
          simp [St.set]
        · cases hs
      · cases hs; cases hn
    · cases hs
  | srvTake i =>
    simp only [St.step] at hs
    split at hs
    · split at hs
      · cases hs
        rcases ht _ _ ha hn with hk | hk
        · exact .inl hk
        · right
          simp only [set_str]
          split
          · rename_i hi; rw [← hi]; exact hk
          · exact hk
      · cases hs
    · cases hs
  | srvDrop i =>
    cases hs
    rcases ht _ _ ha hn with hk | hk
    · exact .inl hk
    · right
      simp only [set_str]
      split
      · rename_i hi; rw [← hi]; exact hk
      · exact hk

theorem Told.run : ∀ {l : List Act} {s s' : St}, Calm s → Told s → (∀ a ∈ l, a.calm = true) → s.run l = some s' → Told s'
  | [], s, s', _, h, _, hr => by simp only [St.run, Option.some.injEq] at hr; subst hr; exact h
  | a :: l, s, s', h0, h, hc, hr => by
    simp only [St.run, Option.bind_eq_some_iff] at hr
    obtain ⟨u, hu, hr⟩ := hr
    exact Told.run (h0.step (hc a (by simp)) hu) (Told.step h0 h hu) (fun b hb => hc b (by simp [hb])) hr

theorem calm_of {l : List Act} (hc : ∀ a ∈ l, a ≠ .apiRecv .refuse ∧ a ≠ .netStop) : ∀ a ∈ l, a.calm = true := by
  intro a ha
  obtain ⟨h1, h2⟩ := hc a ha
  cases a with
  | apiRecv r => cases r <;> first | rfl | exact absurd rfl h1
  | netStop => exact absurd rfl h2
  | _ => rfl

/-! ### C76 -/

/-- **C76.** Out: what the server takes from the body of a stream is what the api task sent on that stream, in the order sent, without gaps and
without anything of another stream. -/
theorem C76_out (hello : Nat) (l : List Act) (s : St) (h : (St.init hello).run l = some s) (i : Nat) :
    (s.str i).taken <+: (s.str i).sent := by
  obtain ⟨x, hx⟩ := ((Inv.init hello).run h).each i |>.out
  exact ⟨(s.str i).body.toList ++ x, by simp [hx]⟩

/-- **C76.** Nothing sent on a stream is lost as long as the stream is served: if all channels are empty, the server has all of it. -/
theorem C76_delivered (hello : Nat) (l : List Act) (s : St) (h : (St.init hello).run l = some s) (i : Nat) (hn : s.net = .serving i)
    (hq : s.inq = none) (hb : (s.str i).body = none) : (s.str i).taken = (s.str i).sent := by
  have := ((Inv.init hello).run h).onOut i (by rw [hn]; rfl) (by rw [hn]; simp)
  rw [hn, hq, hb] at this
  simpa [Net.out, outOf] using this.symm

/-- **C76.** In: what the api task receives of a stream are the parts of the response, in order and without gaps; the end of the
stream is reported at most once, and last, after all parts. -/
theorem C76_in (hello : Nat) (l : List Act) (s : St) (h : (St.init hello).run l = some s) (i : Nat) :
    (s.str i).got <+: (s.str i).frames.map Up.data ++ [.closed] := by
  obtain ⟨x, hx⟩ := ((Inv.init hello).run h).each i |>.inn
  exact ⟨(s.str i).up ++ x, by simp [hx]⟩

/-- **C76.** Nothing of the response is lost as long as the stream is served. -/
theorem C76_received (hello : Nat) (l : List Act) (s : St) (h : (St.init hello).run l = some s) (i : Nat) (hn : s.net = .serving i)
    (hu : (s.str i).up = []) : (s.str i).got = (s.str i).frames.map Up.data := by
  have := ((Inv.init hello).run h).onIn i (by rw [hn]; rfl)
  rw [hn, hu] at this
  simpa [Net.pend] using this.symm

/-- **C76 (partial).** Neither task panics, and the network task does not end before the api task, if the server does not refuse the handshake with
an error message, and the network task is not shut down before the api task.
Missing, because false: `C76_refused_violated`, `C76_refused_close_violated`, `C76_shutdown_violated`. -/
theorem C76_runs_partial (hello : Nat) (l : List Act) (s : St) (h : (St.init hello).run l = some s)
    (hc : ∀ a ∈ l, a ≠ .apiRecv .refuse ∧ a ≠ .netStop) :
    s.net ≠ .panicked ∧ s.api ≠ .panicked ∧
      ((∃ k, s.api = .starting k) ∨ (∃ o b, s.api = .active o b) ∨ s.api = .backoff → s.net ≠ .ended) := by
  have hk := calm_of hc
  have hcalm := (Calm.init hello).run hk h
  refine ⟨hcalm.net, hcalm.api, fun hx => (hcalm.loop ?_).1⟩
  rcases hx with ⟨k, hx⟩ | ⟨o, b, hx⟩ | hx <;> rw [hx] <;> rfl

/-- **C76 (partial).** The end of a stream is reported: if the api task uses a stream that the network task has left, the report waits in the
channel of that stream.  Under the conditions of `C76_runs_partial`. -/
theorem C76_reported_partial (hello : Nat) (l : List Act) (s : St) (h : (St.init hello).run l = some s)
    (hc : ∀ a ∈ l, a ≠ .apiRecv .refuse ∧ a ≠ .netStop) (o : List Nat) (b : Bool) (ha : s.api = .active o b)
    (hq : ∀ k, s.inq ≠ some (.start k)) (hs : ∀ n ∈ [Net.connecting s.cur, .serving s.cur, .close s.cur], s.net ≠ n)
    (hd : ∀ d, s.net ≠ .toBody s.cur d ∧ s.net ≠ .toApi s.cur d) :
    Up.closed ∈ (s.str s.cur).up := by
  have hk := calm_of hc
  have hcalm := (Calm.init hello).run hk h
  have hl : s.api.looping = true := by rw [ha]; rfl
  have hidle : s.net = .idle := by
    have h1 := hcalm.net
    have h2 := (hcalm.loop hl).1
    have h3 : ∀ j, s.net.on = some j → j = s.cur := fun j hj => hcalm.cur hj
    revert h1 h2 h3 hs hd
    cases s.net <;> simp [Net.on] <;> omega
  rcases Told.run (Calm.init hello) (fun _ _ hx => by cases hx) hk h o b ha hidle with ⟨k, hx⟩ | hx
  · exact absurd hx (hq k)
  · exact hx

/-- **C76 (partial).** While the api task has something to send, under the same conditions, one of the tasks can go on by itself, or the server is to
answer or to take something, or sixteen events wait to be read by the api task.
Missing, because false: the last case, in which nobody ever goes on (`C76_deadlock_violated`). -/
theorem C76_progress_partial (hello : Nat) (l : List Act) (s : St) (h : (St.init hello).run l = some s)
    (hc : ∀ a ∈ l, a ≠ .apiRecv .refuse ∧ a ≠ .netStop)
    (hw : (∃ k, s.api = .starting k) ∨ ∃ d o b, s.api = .active (d :: o) b) (hfew : (s.str s.cur).up.length < 16) :
    (∃ a ∈ [Act.apiSend, .netRecv, .netUp, .netBody], (s.step a).isSome) ∨ (∃ i, s.net = .connecting i) ∨
      (∃ i d d', s.net = .toBody i d ∧ (s.str i).body = some d' ∧ (s.str i).bodyAlive = true) := by
  have hk := calm_of hc
  have hcalm := (Calm.init hello).run hk h
  have hl : s.api.looping = true := by
    rcases hw with ⟨k, hx⟩ | ⟨d, o, b, hx⟩ <;> rw [hx] <;> rfl
  have hg := hcalm.gone hl
  cases hq : s.inq with
  | none =>
    left
    refine ⟨.apiSend, by simp, ?_⟩
    rcases hw with ⟨k, hx⟩ | ⟨d, o, b, hx⟩ <;> simp [St.step, St.send, hx, hg, hq]
  | some e =>
    cases hn : s.net with
    | idle => left; exact ⟨.netRecv, by simp, by cases e <;> simp [St.step, St.netRecv, hn, hq]⟩
    | connecting i => exact .inr (.inl ⟨i, rfl⟩)
    | serving i => left; exact ⟨.netRecv, by simp, by cases e <;> simp [St.step, St.netRecv, hn, hq]⟩
    | toBody i d =>
      by_cases hb : (s.str i).bodyAlive = true
      · cases hbd : (s.str i).body with
        | none => left; exact ⟨.netBody, by simp, by simp [St.step, St.netBody, hn, hb, hbd]⟩
        | some d' => exact .inr (.inr ⟨i, d, d', rfl, hbd, hb⟩)
      · left; exact ⟨.netBody, by simp, by simp [St.step, St.netBody, hn, hb]⟩
    | toApi i d =>
      left
      have := hcalm.cur (j := i) (by rw [hn]; rfl)
      subst this
      exact ⟨.netUp, by simp, by by_cases ha : (s.str s.cur).upAlive = true <;> simp [St.step, St.netUp, hn, ha, hfew]⟩
    | close i =>
      left
      have := hcalm.cur (j := i) (by rw [hn]; rfl)
      subst this
      exact ⟨.netUp, by simp, by by_cases ha : (s.str s.cur).upAlive = true <;> simp [St.step, St.netUp, hn, ha, hfew]⟩
    | ended => rw [hn] at hg; cases hg
    | panicked => rw [hn] at hg; cases hg

/-! ### Examples -/

/-- A stream is started, the handshake exchanged, an upload sent, a response received, the stream closed, a second stream started. -/
def someRun : List Act :=
  [.apiSend, .netRecv, .apiSend, .netConn true, .netRecv, .netBody, .srvTake 0, .netFrame (some 100), .netUp, .apiRecv (.reply [7]), .apiSend,
   .netRecv, .netBody, .apiUpload [8, 9], .srvTake 0, .apiSend, .netFrame none, .netUp, .netRecv, .apiSend, .apiRecv .more,
   .apiDelay 2, .netRecv, .apiSend, .netRecv, .apiSend, .netConn true, .netRecv, .netBody, .srvTake 1]

/-- The uploads 8 and 9 were sent on a closed stream; they are lost and not seen on the second. -/
example : ((St.init 1).run someRun).map (fun s => ((s.str 0).sent, (s.str 0).taken, (s.str 0).got, (s.str 1).sent, (s.str 1).taken)) =
    some ([1, 7, 8, 9], [1, 7], [.data 100, .closed], [2], [2]) := by decide
example : ∀ a ∈ someRun, a ≠ .apiRecv .refuse ∧ a ≠ .netStop := by decide


/-! ### Violations -/

/-- The api task waits to send, the network task waits to hand over an event. -/
structure Dead (s : St) : Prop where
  api : ∃ d o b, s.api = .active (d :: o) b
  inq : s.inq.isSome = true
  net : ∃ d, s.net = .toApi s.cur d
  up : (s.str s.cur).up.length = 16
  alive : (s.str s.cur).upAlive = true

theorem Dead.step {s s' : St} {a : Act} (h : Dead s) (hs : s.step a = some s') : Dead s' ∧ s'.api = s.api ∧ s'.net = s.net := by
  obtain ⟨⟨d, o, b, ha⟩, hq, ⟨e, hn⟩, hu, hv⟩ := h
  cases a with
  | apiSend => simp [St.step, St.send, ha, hn, Net.gone, hq] at hs
  | apiRecv r => simp [St.step, St.recv, ha] at hs
  | apiUpload out => simp [St.step, ha] at hs
  | apiDelay hello => simp [St.step, ha] at hs
  | apiStop => simp [St.step, ha] at hs
  | netRecv => simp [St.step, St.netRecv, hn] at hs
  | netStop => simp [St.step, hn] at hs
  | netConn ok => simp [St.step, hn] at hs
  | netFrame f => cases f <;> simp [St.step, hn] at hs
  | netBody => simp [St.step, St.netBody, hn] at hs
  | netUp => simp [St.step, St.netUp, hn, hv, hu] at hs
  | srvTake i =>
    simp only [St.step] at hs
    split at hs
    · split at hs
      · cases hs
        refine ⟨⟨⟨d, o, b, ha⟩, hq, ⟨e, hn⟩, ?_, ?_⟩, rfl, rfl⟩
        · show ((s.set i _).str s.cur).up.length = 16
          rw [set_str]
          split
          · rename_i hi; rw [← hi]; exact hu
          · exact hu
        · exact Eq.trans (by apply set_alive; rfl) hv
      · cases hs
    · cases hs
  | srvDrop i =>
    cases hs
    refine ⟨⟨⟨d, o, b, ha⟩, hq, ⟨e, hn⟩, ?_, ?_⟩, rfl, rfl⟩
    · show ((s.set i _).str s.cur).up.length = 16
      rw [set_str]
      split
      · rename_i hi; rw [← hi]; exact hu
      · exact hu
    · exact Eq.trans (by apply set_alive; rfl) hv

theorem Dead.run : ∀ {l : List Act} {s s' : St}, Dead s → s.run l = some s' → s'.api = s.api ∧ s'.net = s.net
  | [], s, s', _, hr => by simp only [St.run, Option.some.injEq] at hr; subst hr; exact ⟨rfl, rfl⟩
  | a :: l, s, s', h, hr => by
    simp only [St.run, Option.bind_eq_some_iff] at hr
    obtain ⟨u, hu, hr⟩ := hr
    obtain ⟨h1, h2, h3⟩ := h.step hu
    obtain ⟨h4, h5⟩ := h1.run hr
    exact ⟨h4.trans h2, h5.trans h3⟩

/-- The stream is established; the server then sends seventeen parts in a row while the api task has two messages to send. -/
def deadRun : List Act :=
  [.apiSend, .netRecv, .apiSend, .netConn true, .netRecv, .netBody, .srvTake 0, .netFrame (some 0), .netUp, .apiRecv (.reply []), .apiUpload [7, 8]] ++
  (List.range 16).flatMap (fun k => [.netFrame (some k), .netUp]) ++ [.netFrame (some 16), .apiSend]

/-- **C76 (violated).** The api task waits to send its second message while sixteen events wait to be read by it; the network task waits to hand over
the next event and takes no message.  Whatever happens after that, shutdown included, neither task goes on. -/
theorem C76_deadlock_violated : ∃ l s, (St.init 1).run l = some s ∧ s.api = .active [8] true ∧
    ∀ l' s', s.run l' = some s' → s'.api = s.api ∧ s'.net = s.net := by
  have key : ((St.init 1).run deadRun).any (fun s => decide (s.api = .active [8] true) && s.inq.isSome && decide (s.net = .toApi 0 16) &&
    decide (s.cur = 0) && decide ((s.str 0).up.length = 16) && (s.str 0).upAlive) = true := by decide +kernel
  cases hr : (St.init 1).run deadRun with
  | none => rw [hr] at key; cases key
  | some s =>
    rw [hr] at key
    simp only [Option.any_some, Bool.and_eq_true, decide_eq_true_eq] at key
    obtain ⟨⟨⟨⟨⟨h1, h2⟩, h3⟩, h4⟩, h5⟩, h6⟩ := key
    exact ⟨deadRun, s, hr, h1, fun l' s' h => Dead.run ⟨⟨_, _, _, h1⟩, h2, ⟨16, by rw [h3, h4]⟩, by rw [h4]; exact h5, by rw [h4]; exact h6⟩ h⟩

/-- **C76 (violated).** The server answers the handshake with an error message and leaves the stream open; the api task starts the next stream, and the
network task panics. -/
theorem C76_refused_violated : ∃ l s, (St.init 1).run l = some s ∧ s.net = .panicked :=
  have key : ((St.init 1).run [.apiSend, .netRecv, .apiSend, .netConn true, .netRecv, .netBody, .netFrame (some 0), .netUp, .apiRecv .refuse,
    .apiDelay 2, .apiSend, .netRecv]).map (fun s => s.net) = some .panicked := by decide
  match h : (St.init 1).run _, key with
  | some s, key => ⟨_, s, h, by simpa using key⟩
  | none, key => (nomatch key)

/-- **C76 (violated).** If the server closes the stream just before, the network task takes the missing receiver for a shutdown and ends; the api task
panics. -/
theorem C76_refused_close_violated : ∃ l s, (St.init 1).run l = some s ∧ s.net = .ended ∧ s.api = .panicked :=
  have key : ((St.init 1).run [.apiSend, .netRecv, .apiSend, .netConn true, .netRecv, .netBody, .netFrame (some 0), .netUp, .apiRecv .refuse,
    .apiDelay 2, .netFrame none, .netUp, .apiSend]).map (fun s => (s.net, s.api)) = some (.ended, .panicked) := by decide
  match h : (St.init 1).run _, key with
  | some s, key => ⟨_, s, h, by simpa using key⟩
  | none, key => (nomatch key)

/-- **C76 (violated).** Shutdown reaches the network task while the api task sends: the api task panics. -/
theorem C76_shutdown_violated : ∃ l s, (St.init 1).run l = some s ∧ s.api = .panicked :=
  have key : ((St.init 1).run [.apiSend, .netRecv, .apiSend, .netConn true, .netRecv, .netBody, .netFrame (some 0), .netUp, .apiRecv (.reply [7]),
    .netStop, .apiSend]).map (fun s => s.api) = some .panicked := by decide
  match h : (St.init 1).run _, key with
  | some s, key => ⟨_, s, h, by simpa using key⟩
  | none, key => (nomatch key)

end Verif.Hyper
