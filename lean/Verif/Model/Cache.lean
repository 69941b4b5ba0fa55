import Verif.Spec.TypeInfo

/-!
# The descriptor cache

`DescribeType::type_descriptor` with the `std` feature (type_info/mod.rs:44-76) as a machine of any number
of threads, one shared memory access per step.

* `INFO` is a `OnceBox` (`once_cell::race`): `get_or_init` loads the pointer and, if it is null, allocates a
  value and tries to install it with one compare-exchange; whoever loses drops its value and uses the
  installed one.
* The `RwLock` is ideal: it knows its readers and its writer, grants the read lock only if there is no
  writer (and, if `pref` holds, only if no thread waits for writing: both policies are allowed by `std`),
  and the write lock only if nobody holds the lock.
* Building a descriptor is one step, `describe`; if it does not terminate there is no such step. The
  user's metadata expressions run inside `build`, under the write guard: the parameter `fault` says for
  which types they panic, and for which they call `type_descriptor` themselves.
* A panic under the write guard poisons the lock: from then on `read()` and `write()` still take the lock
  but return `Err`, so `unwrap` panics and the guard is dropped while unwinding. A thread that panicked
  goes on with its next call (it caught the panic, or stands for the next thread of the program); its log
  records the panic as `none`.
* `read()` by the thread that has the write guard blocks forever. (`std` also allows it to panic; then the
  type counts as one that panics.)
* `Box::leak` allocates a new address: the heap is the list of all leaked descriptors, an address is an
  index.
-/

namespace Mirror

/-- What the metadata expressions that run inside `T::build` do instead of returning. -/
inductive BuildFault
  /-- panic -/
  | panic
  /-- call `type_descriptor` of some type -/
  | reenter
  deriving DecidableEq, Repr

/-- Where a thread is inside `type_descriptor` for the type `t`. -/
inductive CachePC
  /-- not inside a call -/
  | idle
  /-- before the load in `INFO.get_or_init` (type_info/mod.rs:59) -/
  | start (t : Ty)
  /-- found `INFO` empty, before the compare-exchange (type_info/mod.rs:59-63) -/
  | install (t : Ty)
  /-- waiting in `lock.read()` (type_info/mod.rs:64) -/
  | wantRead (t : Ty)
  /-- read guard held, before `get` (type_info/mod.rs:64) -/
  | reading (t : Ty)
  /-- read guard held, `get` returned `Some` (type_info/mod.rs:65) -/
  | hit (t : Ty) (p : Nat)
  /-- read guard held, `get` returned `None`: the guard is dropped at the end of the `if let` (type_info/mod.rs:66) -/
  | miss (t : Ty)
  /-- waiting in `lock.write()` (type_info/mod.rs:68) -/
  | wantWrite (t : Ty)
  /-- write guard held, before `entry` (type_info/mod.rs:69) -/
  | writing (t : Ty)
  /-- write guard held, the entry is vacant (type_info/mod.rs:69-74) -/
  | building (t : Ty)
  /-- write guard held, `info` is known (type_info/mod.rs:75) -/
  | wrote (t : Ty) (p : Nat)
  /-- read guard held in an `Err`, unwinding (type_info/mod.rs:64) -/
  | readErr (t : Ty)
  /-- write guard held in an `Err`, unwinding (type_info/mod.rs:68) -/
  | writeErr (t : Ty)
  /-- write guard held, and waiting in `lock.read()` of a nested call (type_info/mod.rs:64, 71) -/
  | stuck (t : Ty)

/-- A thread: the calls it still has to make, where it is, and what its finished calls returned (`none`: they
panicked). -/
structure CacheThread where
  todo : List Ty
  pc : CachePC
  log : List (Ty × Option Nat)

/-- The lock and the map it protects. -/
structure CacheLock where
  map : Ty → Option Nat
  readers : List Nat
  writer : Option Nat
  poisoned : Bool

/-- Shared memory: `INFO` and the leaked descriptors. -/
structure CacheShared where
  cell : Option CacheLock
  heap : List (Ty × TypeDescriptor)

/-- Machine states. -/
structure CacheState where
  shared : CacheShared
  thr : Nat → CacheThread

/-- One step of thread `i`. `noWriters` says that no thread is waiting for the write lock.
`Box<T>::type_descriptor` calls `T`'s (boxed.rs:31-33), hence the `unbox` in `call`. -/
inductive ThreadStep (E : Env) (fault : Ty → Option BuildFault) (pref noWriters : Prop) (i : Nat) :
    CacheShared → CacheThread → CacheShared → CacheThread → Prop
  | call (sh t r log) : ThreadStep E fault pref noWriters i
      sh ⟨t :: r, .idle, log⟩ sh ⟨r, .start t.unbox, log⟩
  | loadSome (l h td t log) : ThreadStep E fault pref noWriters i
      ⟨some l, h⟩ ⟨td, .start t, log⟩ ⟨some l, h⟩ ⟨td, .wantRead t, log⟩
  | loadNone (h td t log) : ThreadStep E fault pref noWriters i
      ⟨none, h⟩ ⟨td, .start t, log⟩ ⟨none, h⟩ ⟨td, .install t, log⟩
  | installWin (h td t log) : ThreadStep E fault pref noWriters i
      ⟨none, h⟩ ⟨td, .install t, log⟩ ⟨some ⟨fun _ => none, [], none, false⟩, h⟩ ⟨td, .wantRead t, log⟩
  | installLose (l h td t log) : ThreadStep E fault pref noWriters i
      ⟨some l, h⟩ ⟨td, .install t, log⟩ ⟨some l, h⟩ ⟨td, .wantRead t, log⟩
  | lockRead (m rs h td t log) : (pref → noWriters) → ThreadStep E fault pref noWriters i
      ⟨some ⟨m, rs, none, false⟩, h⟩ ⟨td, .wantRead t, log⟩
      ⟨some ⟨m, i :: rs, none, false⟩, h⟩ ⟨td, .reading t, log⟩
  | lockReadErr (m rs h td t log) : (pref → noWriters) → ThreadStep E fault pref noWriters i
      ⟨some ⟨m, rs, none, true⟩, h⟩ ⟨td, .wantRead t, log⟩
      ⟨some ⟨m, i :: rs, none, true⟩, h⟩ ⟨td, .readErr t, log⟩
  | unwindRead (m rs w b h td t log) : ThreadStep E fault pref noWriters i
      ⟨some ⟨m, rs, w, b⟩, h⟩ ⟨td, .readErr t, log⟩
      ⟨some ⟨m, rs.erase i, w, b⟩, h⟩ ⟨td, .idle, log ++ [(t, none)]⟩
  | getSome (l h td t p log) : l.map t = some p → ThreadStep E fault pref noWriters i
      ⟨some l, h⟩ ⟨td, .reading t, log⟩ ⟨some l, h⟩ ⟨td, .hit t p, log⟩
  | getNone (l h td t log) : l.map t = none → ThreadStep E fault pref noWriters i
      ⟨some l, h⟩ ⟨td, .reading t, log⟩ ⟨some l, h⟩ ⟨td, .miss t, log⟩
  | returnHit (m rs w b h td t p log) : ThreadStep E fault pref noWriters i
      ⟨some ⟨m, rs, w, b⟩, h⟩ ⟨td, .hit t p, log⟩
      ⟨some ⟨m, rs.erase i, w, b⟩, h⟩ ⟨td, .idle, log ++ [(t, some p)]⟩
  | dropRead (m rs w b h td t log) : ThreadStep E fault pref noWriters i
      ⟨some ⟨m, rs, w, b⟩, h⟩ ⟨td, .miss t, log⟩
      ⟨some ⟨m, rs.erase i, w, b⟩, h⟩ ⟨td, .wantWrite t, log⟩
  | lockWrite (m h td t log) : ThreadStep E fault pref noWriters i
      ⟨some ⟨m, [], none, false⟩, h⟩ ⟨td, .wantWrite t, log⟩
      ⟨some ⟨m, [], some i, false⟩, h⟩ ⟨td, .writing t, log⟩
  | lockWriteErr (m h td t log) : ThreadStep E fault pref noWriters i
      ⟨some ⟨m, [], none, true⟩, h⟩ ⟨td, .wantWrite t, log⟩
      ⟨some ⟨m, [], some i, true⟩, h⟩ ⟨td, .writeErr t, log⟩
  | unwindWrite (m rs w b h td t log) : ThreadStep E fault pref noWriters i
      ⟨some ⟨m, rs, w, b⟩, h⟩ ⟨td, .writeErr t, log⟩
      ⟨some ⟨m, rs, none, true⟩, h⟩ ⟨td, .idle, log ++ [(t, none)]⟩
  | occupied (l h td t p log) : l.map t = some p → ThreadStep E fault pref noWriters i
      ⟨some l, h⟩ ⟨td, .writing t, log⟩ ⟨some l, h⟩ ⟨td, .wrote t p, log⟩
  | vacant (l h td t log) : l.map t = none → ThreadStep E fault pref noWriters i
      ⟨some l, h⟩ ⟨td, .writing t, log⟩ ⟨some l, h⟩ ⟨td, .building t, log⟩
  | build (m rs w b h td t log fuel d) : fault t = none → describe E fuel t = some d →
      ThreadStep E fault pref noWriters i
      ⟨some ⟨m, rs, w, b⟩, h⟩ ⟨td, .building t, log⟩
      ⟨some ⟨fun u => if u = t then some h.length else m u, rs, w, b⟩, h ++ [(t, d)]⟩
      ⟨td, .wrote t h.length, log⟩
  | buildPanic (m rs w b h td t log) : fault t = some .panic → ThreadStep E fault pref noWriters i
      ⟨some ⟨m, rs, w, b⟩, h⟩ ⟨td, .building t, log⟩
      ⟨some ⟨m, rs, none, true⟩, h⟩ ⟨td, .idle, log ++ [(t, none)]⟩
  | buildReenter (sh td t log) : fault t = some .reenter → ThreadStep E fault pref noWriters i
      sh ⟨td, .building t, log⟩ sh ⟨td, .stuck t, log⟩
  | returnWrite (m rs w b h td t p log) : ThreadStep E fault pref noWriters i
      ⟨some ⟨m, rs, w, b⟩, h⟩ ⟨td, .wrote t p, log⟩
      ⟨some ⟨m, rs, none, b⟩, h⟩ ⟨td, .idle, log ++ [(t, some p)]⟩

/-- No thread is waiting in `lock.write()`. -/
def CacheState.NoWriters (s : CacheState) : Prop := ∀ j t, (s.thr j).pc ≠ .wantWrite t

/-- One step of the machine, taken by thread `i`. -/
def CacheStep (E : Env) (fault : Ty → Option BuildFault) (pref : Prop) (s : CacheState) (i : Nat) (s' : CacheState) : Prop :=
  ∃ sh th, ThreadStep E fault pref s.NoWriters i s.shared (s.thr i) sh th ∧
    s' = ⟨sh, fun j => if j = i then th else s.thr j⟩

/-- Thread `i` makes the calls `prog i`; nothing has happened yet. -/
def CacheState.init (prog : Nat → List Ty) : CacheState :=
  ⟨⟨none, []⟩, fun i => ⟨prog i, .idle, []⟩⟩

/-- Reachable by any schedule. -/
inductive CacheReach (E : Env) (fault : Ty → Option BuildFault) (pref : Prop) (prog : Nat → List Ty) : CacheState → Prop
  | init : CacheReach E fault pref prog (.init prog)
  | step (s i s') : CacheReach E fault pref prog s → CacheStep E fault pref s i s' → CacheReach E fault pref prog s'

/-- A schedule of `n` steps from `s` to `s'`. -/
inductive CacheRun (E : Env) (fault : Ty → Option BuildFault) (pref : Prop) : Nat → CacheState → CacheState → Prop
  | nil (s) : CacheRun E fault pref 0 s s
  | cons (n s i s' s'') : CacheStep E fault pref s i s' → CacheRun E fault pref n s' s'' →
      CacheRun E fault pref (n + 1) s s''

end Mirror
