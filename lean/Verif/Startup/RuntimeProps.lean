import Verif.Startup.Runtime

/-
C21 (crash-loop protection) and C24 (runtime values and watches).
-/
namespace Verif.Startup

variable {Cfg : Type}

/-! ### C21 -/

/-- Neither a handshake nor a new configuration. -/
def RtEv.isStart : RtEv Cfg → Bool
  | .start _ => true
  | _ => false

/-- How many more starts may apply the cached configuration. -/
def RtDisk.left (d : RtDisk Cfg) : Nat :=
  match d.retry with
  | some (some n) => 6 - n
  | _ => 0

theorem RtDisk.left_wipe (d : RtDisk Cfg) (e : StartEnv Cfg) : (d.wipe e).left ≤ d.left := by
  unfold RtDisk.left RtDisk.wipe
  cases e.wipeRetry <;> simp

theorem RtDisk.left_start (d : RtDisk Cfg) (e : StartEnv Cfg) :
    (d.start e).1.left + (d.start e).2.toList.length ≤ d.left := by
  obtain ⟨r, c⟩ := d
  unfold RtDisk.start
  cases r with
  | none => simpa using RtDisk.left_wipe _ e
  | some r =>
    cases c with
    | none => simpa using RtDisk.left_wipe _ e
    | some c =>
      simp only
      cases hr : e.readRetry with
      | false => simpa using RtDisk.left_wipe _ e
      | true =>
        simp only [if_true]
        cases r with
        | none => simpa using RtDisk.left_wipe _ e
        | some n =>
          have hpersist : ∀ w, ((⟨some (some n), some c⟩ : RtDisk Cfg).persist (n + 1) w).1.left ≤ 6 - n := by
            intro w; cases w <;> simp [RtDisk.persist, RtDisk.left]; omega
          have hbase : (⟨some (some n), some c⟩ : RtDisk Cfg).left = 6 - n := rfl
          rw [hbase]
          simp only
          split
          · simpa using hpersist e.incr
          · split
            · simpa using Nat.le_trans (RtDisk.left_wipe _ e) (hpersist e.incr)
            · split
              · simpa using Nat.le_trans (RtDisk.left_wipe _ e) (hpersist e.incr)
              · rename_i hdie hok hn
                have hincr : e.incr = .ok := by
                  cases hi : e.incr <;> simp [hi, RtDisk.persist] at hok ⊢
                rw [hincr]
                generalize (if e.readCache = true then c else none) = cc
                cases cc with
                | none => simpa using Nat.le_trans (RtDisk.left_wipe _ e) (hpersist .ok)
                | some c' =>
                  have : ∀ w, (((⟨some (some n), some c⟩ : RtDisk Cfg).persist (n + 1) .ok).1.cacheUpdate c'
                      e.tornCache w).left = 6 - (n + 1) := by
                    intro w; cases w <;> rfl
                  simp only [this, Option.toList_some, List.length_cons, List.length_nil]
                  omega

/-- C21: from any state of the device, in any sequence of process starts — with any failing or torn
write, failing removal, or death of the process at any point — that contains no handshake and no new
configuration, at most six starts apply a cached configuration. -/
theorem C21_at_most_six (r : Rt Cfg) (es : List (RtEv Cfg)) (h : ∀ e ∈ es, e.isStart = true) :
    (r.applied es).length ≤ 6 := by
  have key : ∀ (es : List (RtEv Cfg)), (∀ e ∈ es, e.isStart = true) → ∀ r : Rt Cfg,
      (r.applied es).length ≤ r.disk.left := by
    intro es
    induction es with
    | nil => intro _ r; simp [Rt.applied]
    | cons e es ih =>
      intro h r
      cases e with
      | start env =>
        have h1 := RtDisk.left_start r.disk env
        have h2 := ih (fun e he => h e (by simp [he])) (r.step (.start env)).1
        simp only [Rt.applied, List.length_append]
        simp only [Rt.step] at h2 ⊢
        omega
      | handshake w => exact absurd (h _ List.mem_cons_self) (by simp [RtEv.isStart])
      | update c w t d w' => exact absurd (h _ List.mem_cons_self) (by simp [RtEv.isStart])
  refine Nat.le_trans (key es h r) ?_
  unfold RtDisk.left
  split <;> omega

/-- Nothing goes wrong during a start. -/
def StartEnv.Good (e : StartEnv Cfg) : Prop :=
  e.readRetry = true ∧ e.incr = .ok ∧ e.dieAfterIncr = false ∧ e.readCache = true ∧ e.writeBack = .ok ∧
    e.wipeRetry = true ∧ e.wipeCache = true

/-- C21: a start without failures applies the cached configuration while fewer than six starts have
been counted, and keeps it; afterwards it starts with defaults and wipes the cache. -/
theorem C21_start (v : Bool) (n : Nat) (c : Cfg) (e : StartEnv Cfg) (h : e.Good) :
    let r : Rt Cfg := ⟨⟨some (some n), some (some c)⟩, v⟩
    (n < 6 → r.step (.start e) = (⟨⟨some (some (n + 1)), some (some c)⟩, false⟩, some c)) ∧
    (6 ≤ n → r.step (.start e) = (⟨⟨none, none⟩, false⟩, none)) := by
  obtain ⟨h1, h2, h3, h4, h5, h6, h7⟩ := h
  intro r
  constructor
  · intro hn
    have : ¬ n > 5 := by omega
    simp [r, Rt.step, RtDisk.start, h1, h2, h3, h4, h5, RtDisk.persist, this, RtDisk.cacheUpdate]
  · intro hn
    have : n > 5 := by omega
    simp [r, Rt.step, RtDisk.start, h1, h2, h3, RtDisk.persist, this, RtDisk.wipe, h6, h7]

/-- C21: at six counted starts the configuration is not applied even if the files cannot be removed; each file that is not removed is
still there, with the count one higher, for the next start. -/
theorem C21_not_removed (v : Bool) (n : Nat) (c : Cfg) (e : StartEnv Cfg) (h1 : e.readRetry = true) (h2 : e.incr = .ok)
    (h3 : e.dieAfterIncr = false) (hn : 6 ≤ n) :
    (Rt.mk ⟨some (some n), some (some c)⟩ v).step (.start e) =
      (⟨⟨if e.wipeRetry = true then none else some (some (n + 1)), if e.wipeCache = true then none else some (some c)⟩, false⟩, none) := by
  have : n > 5 := by omega
  simp [Rt.step, RtDisk.start, h1, h2, h3, RtDisk.persist, this, RtDisk.wipe]

/-- C21: the first handshake of a process and every new configuration reset the count (if the write
succeeds), so that the next start applies the cached configuration again. -/
theorem C21_reset (d : RtDisk Cfg) (v : Bool) (c : Cfg) (t : Option Cfg) :
    ((Rt.mk d false).step (.handshake .ok)).1.disk.retry = some (some 0) ∧
    ((Rt.mk d v).step (.update c .ok t false .ok)).1.disk = ⟨some (some 0), some (some c)⟩ := by
  simp [Rt.step, RtDisk.persist, RtDisk.cacheUpdate]

/-- C21: what the directory holds when the writes do not succeed.  A failed write leaves the file of before; a torn write of the count leaves
a count that cannot be read, and a torn write of the configuration what the tear left. -/
theorem C21_unwritten (d : RtDisk Cfg) (v : Bool) (c : Cfg) (t : Option Cfg) (w : Wr) :
    ((Rt.mk d false).step (.handshake .fail)).1 = ⟨d, true⟩ ∧
    ((Rt.mk d false).step (.handshake .torn)).1 = ⟨⟨some none, d.cache⟩, true⟩ ∧
    ((Rt.mk d v).step (.update c .fail t false .ok)).1 = ⟨⟨some (some 0), d.cache⟩, v⟩ ∧
    ((Rt.mk d v).step (.update c .torn t false .ok)).1 = ⟨⟨some (some 0), some t⟩, v⟩ ∧
    ((Rt.mk d v).step (.update c .ok t true w)).1 = ⟨⟨d.retry, some (some c)⟩, v⟩ := by
  simp [Rt.step, RtDisk.persist, RtDisk.cacheUpdate]

/-- C21: a start that cannot read the count, because the last write of it was torn, applies nothing and removes both files. -/
theorem C21_torn (d : RtDisk Cfg) (e : StartEnv Cfg) (h6 : e.wipeRetry = true) (h7 : e.wipeCache = true) (hc : d.cache ≠ none) :
    (((Rt.mk d false).step (.handshake .torn)).1.step (.start e)) = (⟨⟨none, none⟩, false⟩, none) := by
  cases h : d.cache with
  | none => exact absurd h hc
  | some c => cases hr : e.readRetry <;> simp [Rt.step, RtDisk.persist, RtDisk.start, RtDisk.wipe, h, h6, h7, hr]

/-- C21: a start whose write of the configuration back to the cache does not succeed applies it all the same. -/
theorem C21_write_back (v : Bool) (n : Nat) (c : Cfg) (e : StartEnv Cfg) (h1 : e.readRetry = true) (h2 : e.incr = .ok)
    (h3 : e.dieAfterIncr = false) (h4 : e.readCache = true) (hn : n < 6) :
    (Rt.mk ⟨some (some n), some (some c)⟩ v).step (.start e) =
      (⟨⟨some (some (n + 1)), some (if e.writeBack = .torn then e.tornCache else some c)⟩, false⟩, some c) := by
  have : ¬ n > 5 := by omega
  cases hw : e.writeBack <;> simp [Rt.step, RtDisk.start, h1, h2, h3, h4, hw, RtDisk.persist, this, RtDisk.cacheUpdate]

/-- C21: a process that dies after the count was written has counted its start and applied nothing; both files are still there. -/
theorem C21_dies (v : Bool) (n : Nat) (c : Option Cfg) (e : StartEnv Cfg) (h1 : e.readRetry = true) (h2 : e.incr = .ok)
    (h3 : e.dieAfterIncr = true) :
    (Rt.mk ⟨some (some n), some c⟩ v).step (.start e) = (⟨⟨some (some (n + 1)), some c⟩, false⟩, none) := by
  simp [Rt.step, RtDisk.start, h1, h2, h3, RtDisk.persist]

/-- C21: a start that cannot count itself applies nothing and removes the files. -/
theorem C21_uncounted (v : Bool) (n : Nat) (c : Option Cfg) (e : StartEnv Cfg) (h2 : e.incr ≠ .ok) (h3 : e.dieAfterIncr = false)
    (h6 : e.wipeRetry = true) (h7 : e.wipeCache = true) :
    (Rt.mk ⟨some (some n), some c⟩ v).step (.start e) = (⟨⟨none, none⟩, false⟩, none) := by
  cases hr : e.readRetry <;> cases hi : e.incr <;>
    first | exact absurd hi h2 | simp [Rt.step, RtDisk.start, hr, hi, h3, h6, h7, RtDisk.persist, RtDisk.wipe]

/-- Starts for `C21_dies` and `C21_uncounted`. -/
example :
    let e : StartEnv Nat := ⟨true, .ok, true, true, .ok, none, true, true⟩
    let f : StartEnv Nat := ⟨true, .fail, false, true, .ok, none, true, true⟩
    (Rt.mk ⟨some (some 2), some (some 7)⟩ false).step (.start e) = (⟨⟨some (some 3), some (some 7)⟩, false⟩, none) ∧
    f.incr ≠ .ok ∧ (Rt.mk ⟨some (some 2), some (some 7)⟩ false).step (.start f) = (⟨⟨none, none⟩, false⟩, none) := ⟨rfl, by decide, rfl⟩

/-- Starts for `C21_torn` and `C21_write_back`. -/
example :
    let e : StartEnv Nat := ⟨true, .ok, false, true, .torn, some 3, true, true⟩
    (((Rt.mk ⟨some (some 2), some (some 7)⟩ false).step (.handshake .torn)).1.step (.start e)) = (⟨⟨none, none⟩, false⟩, none) ∧
    (Rt.mk ⟨some (some 2), some (some 7)⟩ false).step (.start e) = (⟨⟨some (some 3), some (some 3)⟩, false⟩, some 7) := ⟨rfl, rfl⟩

/-- A start for `C21_not_removed`: only the cache is removed. -/
example :
    let e : StartEnv Nat := ⟨true, .ok, false, true, .ok, none, false, true⟩
    e.readRetry = true ∧ e.incr = .ok ∧ e.dieAfterIncr = false ∧
    (Rt.mk ⟨some (some 6), some (some 7)⟩ true).step (.start e) = (⟨⟨some (some 7), none⟩, false⟩, none) := ⟨rfl, rfl, rfl, rfl⟩

/-- The bound six is reached: after an update, six crashing starts apply the configuration, the seventh
does not and wipes it, the eighth does not; a handshake in between starts the count again. -/
example :
    let e : StartEnv Nat := ⟨true, .ok, false, true, .ok, none, true, true⟩
    let r : Rt Nat := ((Rt.mk ⟨none, none⟩ false).step (.update 7 .ok none false .ok)).1
    r.applied (List.replicate 8 (.start e)) = List.replicate 6 7 ∧
    (r.run (List.replicate 8 (.start e))).disk = ⟨none, none⟩ ∧
    r.applied (List.replicate 5 (.start e) ++ [.handshake .ok] ++ List.replicate 8 (.start e)) =
      List.replicate 11 7 := by decide

/-! ### C24 -/

theorem lookup_map (ws : List (String × WatchCh)) (f : String → WatchCh → WatchCh) (p : String) :
    (ws.map fun (q, w) => (q, f q w)).lookup p = (ws.lookup p).map (f p) := by
  induction ws with
  | nil => rfl
  | cons x ws ih =>
    obtain ⟨q, w⟩ := x
    simp only [List.map_cons, List.lookup_cons]
    by_cases h : p = q
    · subst h; simp
    · have : (p == q) = false := by simpa using h
      simp only [this]; exact ih

theorem lookup_append_singleton (ws : List (String × WatchCh)) (p q : String) (w : WatchCh) :
    (ws ++ [(q, w)]).lookup p = (ws.lookup p).or (if p = q then some w else none) := by
  induction ws with
  | nil =>
    by_cases h : p = q
    · subst h; simp
    · have : (p == q) = false := by simpa using h
      simp [h]
  | cons x ws ih =>
    obtain ⟨r, v⟩ := x
    simp only [List.cons_append, List.lookup_cons]
    cases p == r
    · exact ih
    · rfl

/-- Every watch shows the value of the current snapshot. -/
def Loader.Ok (l : Loader) : Prop :=
  ∀ p w, l.watches.lookup p = some w → w.value = readValue l.snapshot p w.default

theorem WatchCh.send_default (w : WatchCh) (p : String) (s : Snapshot) : (w.send p s).default = w.default := by
  unfold WatchCh.send; simp only; split <;> rfl

theorem WatchCh.send_value (w : WatchCh) (p : String) (s : Snapshot) :
    (w.send p s).value = readValue s p w.default := by
  unfold WatchCh.send
  simp only
  split
  · rename_i h; exact h
  · rfl

theorem Loader.Ok.step {l : Loader} (h : l.Ok) (op : LdOp) : (l.step op).Ok := by
  cases op with
  | update s =>
    intro p w hw
    simp only [Loader.step, Loader.update] at hw ⊢
    rw [lookup_map l.watches (fun q w => w.send q s)] at hw
    rw [Option.map_eq_some_iff] at hw
    obtain ⟨w', _, rfl⟩ := hw
    rw [WatchCh.send_value, WatchCh.send_default]
  | register p d =>
    simp only [Loader.step, Loader.register]
    split
    · exact h
    · intro q w hw
      simp only [lookup_append_singleton] at hw ⊢
      rw [Option.or_eq_some_iff] at hw
      rcases hw with hw | ⟨_, hw⟩
      · exact h q w hw
      · split at hw
        · rename_i he; simp at hw; subst hw; subst he; rfl
        · simp at hw

theorem Loader.Ok.run (ops : List LdOp) : ∀ {l : Loader}, l.Ok → (l.run ops).Ok := by
  induction ops with
  | nil => intro l h; exact h
  | cons op ops ih => intro l h; exact ih (h.step op)

/-- The last configuration applied in a history (the empty one at first). -/
def lastSnapshot : List LdOp → Snapshot → Snapshot
  | [], s => s
  | .update s :: ops, _ => lastSnapshot ops s
  | .register _ _ :: ops, s => lastSnapshot ops s

theorem Loader.run_snapshot (ops : List LdOp) : ∀ l : Loader, (l.run ops).snapshot = lastSnapshot ops l.snapshot := by
  induction ops with
  | nil => intro l; rfl
  | cons op ops ih =>
    intro l
    cases op with
    | update s => exact ih _
    | register p d =>
      refine (ih _).trans ?_
      have : (l.step (.register p d)).snapshot = l.snapshot := by
        simp only [Loader.step, Loader.register]; split <;> rfl
      rw [this]; rfl

/-- A registered watch stays registered with its default; its version grows by one exactly with each
update that changes the value it reads. -/
theorem Loader.step_watch (l : Loader) (op : LdOp) (p : String) (w : WatchCh) (h : l.watches.lookup p = some w) :
    ∃ w', (l.step op).watches.lookup p = some w' ∧ w'.default = w.default ∧
      (w'.version = w.version + if w'.value = w.value then 0 else 1) := by
  cases op with
  | update s =>
    refine ⟨w.send p s, ?_, WatchCh.send_default .., ?_⟩
    · simp only [Loader.step, Loader.update]
      rw [lookup_map l.watches (fun q w => w.send q s), h]; rfl
    · rw [WatchCh.send_value]
      unfold WatchCh.send
      simp only
      by_cases hc : w.value = readValue s p w.default
      · simp [hc]
      · have hc' : ¬ readValue s p w.default = w.value := fun e => hc e.symm
        simp [hc, hc']
  | register q d =>
    refine ⟨w, ?_, rfl, by simp⟩
    simp only [Loader.step, Loader.register]
    split
    · exact h
    · simp only [lookup_append_singleton, h, Option.some_or]

/-- The values of the flag `p` (with default `d`) along a history, starting in snapshot `s`. -/
def valuesAlong (p : String) (d : TVal) : List LdOp → Snapshot → List TVal
  | [], s => [readValue s p d]
  | .update s' :: ops, s => readValue s p d :: valuesAlong p d ops s'
  | .register _ _ :: ops, s => readValue s p d :: valuesAlong p d ops s

theorem Loader.run_watch (ops : List LdOp) : ∀ (l : Loader), l.Ok → ∀ (p : String) (w : WatchCh),
    l.watches.lookup p = some w →
    ∃ w', (l.run ops).watches.lookup p = some w' ∧ w'.default = w.default ∧ w.version ≤ w'.version ∧
      (w'.version = w.version ↔ ∀ v ∈ valuesAlong p w.default ops l.snapshot, v = w.value) := by
  induction ops with
  | nil =>
    intro l hok p w h
    refine ⟨w, h, rfl, Nat.le_refl _, ?_⟩
    simp [valuesAlong, hok p w h]
  | cons op ops ih =>
    intro l hok p w h
    obtain ⟨w1, h1, hd1, hv1⟩ := l.step_watch op p w h
    obtain ⟨w2, h2, hd2, hle, hiff⟩ := ih (l.step op) (hok.step op) p w1 h1
    refine ⟨w2, h2, hd2.trans hd1, by omega, ?_⟩
    have hval1 : w1.value = readValue (l.step op).snapshot p w1.default := hok.step op p w1 h1
    have hval : w.value = readValue l.snapshot p w.default := hok p w h
    have hcons : valuesAlong p w.default (op :: ops) l.snapshot =
        w.value :: valuesAlong p w.default ops (l.step op).snapshot := by
      cases op with
      | update s => simp [valuesAlong, hval, Loader.step, Loader.update]
      | register q d =>
        have : (l.step (.register q d)).snapshot = l.snapshot := by
          simp only [Loader.step, Loader.register]; split <;> rfl
        simp [valuesAlong, hval, this]
    rw [hcons]
    rw [hd1] at hiff hval1
    have hmem : w1.value ∈ valuesAlong p w.default ops (l.step op).snapshot := by
      rw [hval1]
      cases ops with
      | nil => simp [valuesAlong]
      | cons o os => cases o <;> simp [valuesAlong]
    constructor
    · intro heq v hv
      have : w1.value = w.value := by
        by_cases hc : w1.value = w.value
        · exact hc
        · simp [hc] at hv1; omega
      rw [this] at hiff hv1
      simp at hv1
      rcases List.mem_cons.mp hv with rfl | hv
      · rfl
      · exact hiff.mp (by omega) v hv
    · intro hall
      have he : w1.value = w.value := hall _ (List.mem_cons_of_mem _ hmem)
      rw [he] at hiff hv1
      simp at hv1
      have := hiff.mpr (fun v hv => hall v (List.mem_cons_of_mem _ hv))
      omega

theorem Loader.new_ok (s : Snapshot) : (Loader.mk s []).Ok := by
  intro p w h; simp at h

/-- C24: a registered flag reads the value in the last applied configuration, or the default given at
its (first) registration. -/
theorem C24_read (ops ops' : List LdOp) (p : String) (d : TVal) :
    let l := (Loader.mk [] []).run ops
    l.watches.lookup p = none →
    ((l.register p d).1.run ops').readWatch p = some (readValue (lastSnapshot ops' (lastSnapshot ops [])) p d) := by
  intro l hl
  have hok : l.Ok := Loader.Ok.run ops (Loader.new_ok [])
  have hreg : (l.register p d).1.Ok := hok.step (.register p d)
  have hlook : (l.register p d).1.watches.lookup p = some ⟨d, readValue l.snapshot p d, 0⟩ := by
    simp [Loader.register, hl, lookup_append_singleton]
  obtain ⟨w', h1, h2, _, _⟩ := Loader.run_watch ops' _ hreg p _ hlook
  have hv := Loader.Ok.run ops' hreg p w' h1
  rw [Loader.run_snapshot] at hv
  have hs : (l.register p d).1.snapshot = l.snapshot := by simp [Loader.register, hl]
  simp only [Loader.readWatch, h1, Option.map_some, hv, h2, hs]
  rw [show l.snapshot = lastSnapshot ops [] from Loader.run_snapshot ops _]

/-- C24: a watcher that has seen the current value of its flag is told about a change exactly when one
of the later updates changed the value the flag reads. -/
theorem C24_notify (ops ops' : List LdOp) (p : String) (w : WatchCh) :
    let l := (Loader.mk [] []).run ops
    l.watches.lookup p = some w →
    ((l.run ops').hasChanged p w.version = some true ↔
      ∃ v ∈ valuesAlong p w.default ops' (lastSnapshot ops []), v ≠ readValue (lastSnapshot ops []) p w.default) := by
  intro l hl
  have hok : l.Ok := Loader.Ok.run ops (Loader.new_ok [])
  obtain ⟨w', h1, _, _, hiff⟩ := Loader.run_watch ops' l hok p w hl
  have hs : l.snapshot = lastSnapshot ops [] := Loader.run_snapshot ops _
  rw [hok p w hl, hs] at hiff
  simp only [Loader.hasChanged, h1, Option.map_some, Option.some.injEq, decide_eq_true_eq]
  constructor
  · intro hne
    have : ¬ ∀ v ∈ valuesAlong p w.default ops' (lastSnapshot ops []),
        v = readValue (lastSnapshot ops []) p w.default := fun h => hne (hiff.mpr h)
    simpa using this
  · rintro ⟨v, hv, hne⟩ heq
    exact hne (hiff.mp heq v hv)

/-- What a read means: the value of the key if it has the type of the flag, the default if the key is
missing. -/
theorem C24_read_value (s : Snapshot) (p : String) :
    (∀ d, s.lookup p = none → readValue s p d = d) ∧
    (∀ n d, s.lookup p = some (.uint n) → readValue s p (.int d) = .int n ∧
      readValue s p (.duration d) = .duration n) ∧
    (∀ b d, s.lookup p = some (.bool b) → readValue s p (.bool d) = .bool b) := by
  refine ⟨fun d h => by simp [readValue, h], fun n d h => by simp [readValue, h, Val.uintValue],
    fun b d h => by simp [readValue, h, Val.boolValue]⟩

/-- C24: a path keeps the type it was first registered with: a later registration with another type is
refused, one with the same type succeeds, and neither changes what is read; the value read always has that
type. -/
theorem C24_type (ops ops' : List LdOp) (p : String) (d d' : TVal) :
    let l := (Loader.mk [] []).run ops
    let l' := (l.register p d).1.run ops'
    l.watches.lookup p = none →
    ((l'.register p d').2.isSome = true ↔ d'.kind = d.kind) ∧ (l'.register p d').1 = l' ∧
    ∀ v, l'.readWatch p = some v → v.kind = d.kind := by
  intro l l' hl
  have hok : l.Ok := Loader.Ok.run ops (Loader.new_ok [])
  have hreg : (l.register p d).1.Ok := hok.step (.register p d)
  have hlook : (l.register p d).1.watches.lookup p = some ⟨d, readValue l.snapshot p d, 0⟩ := by
    simp [Loader.register, hl, lookup_append_singleton]
  obtain ⟨w', h1, h2, _, _⟩ := Loader.run_watch ops' _ hreg p _ hlook
  have hv := Loader.Ok.run ops' hreg p w' h1
  have h1' : l'.watches.lookup p = some w' := h1
  have h2' : w'.default = d := h2
  refine ⟨?_, by simp [Loader.register, h1'], ?_⟩
  · simp only [Loader.register, h1', h2']
    by_cases hk : d.kind = d'.kind
    · simp [hk]
    · simp only [hk, if_false, Option.isSome_none, Bool.false_eq_true, false_iff]
      exact fun e => hk e.symm
  · intro v hr
    simp only [Loader.readWatch, h1', Option.map_some, Option.some.injEq] at hr
    rw [← hr, hv, h2']
    unfold readValue
    split
    · rfl
    · cases d <;> rfl

/-- Three updates; the second does not change the flag, the third removes it (default again). -/
example :
    let l := (((Loader.mk [] []).run [.update [("a", .uint 5)]]).register "a" (.int 1)).1
    l.readWatch "a" = some (.int 5) ∧
    (l.run [.update [("a", .uint 5), ("b", .bool true)]]).hasChanged "a" 0 = some false ∧
    (l.run [.update [("b", .bool true)]]).hasChanged "a" 0 = some true ∧
    (l.run [.update [("b", .bool true)]]).readWatch "a" = some (.int 1) := by decide

end Verif.Startup
