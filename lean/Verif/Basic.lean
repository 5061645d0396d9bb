/-!
# Shared vocabulary of the model
-/
namespace Itc

/-- Point update of a total map: `m[a] = b`. -/
def upd {β : Type} (f : Nat → β) (a : Nat) (b : β) : Nat → β := fun x => if x = a then b else f x

@[simp] theorem upd_same {β : Type} (f : Nat → β) (a : Nat) (b : β) : upd f a b a = b := by simp [upd]
theorem upd_ne {β : Type} (f : Nat → β) {a x : Nat} (b : β) (h : x ≠ a) : upd f a b x = f x := by simp [upd, h]

/-- The exceptions the library can raise or carry.  `user n` stands for any exception raised by user code. -/
inductive Exn
  | user (n : Nat)
  | promiseSatisfied      -- std::future_errc::promise_already_satisfied (future_state.hpp:48,146,182)
  | futureRetrieved       -- std::future_errc::future_already_retrieved (future.hpp:237)
  | noState               -- std::future_errc::no_state (future_state.hpp:198)
  | brokenPromise         -- std::future_errc::broken_promise (future.hpp:214, future_state.hpp:168)
  | deadlock              -- std::errc::resource_deadlock_would_occur (mutex.hpp:32)
  | noLock                -- std::errc::no_lock_available (mutex.hpp:67)
  | invalidArg            -- std::errc::invalid_argument (std::thread::join / detach of a thread that is not joinable)
  | badIndex              -- std::runtime_error("bad field index") (when_all_any.hpp:210)
  deriving DecidableEq, Repr

/-- std::future_status -/
inductive FStat
  | ready | timeout | deferred
  deriving DecidableEq, Repr

/-- Values returned by calls (and stored in futures).  `cv true` is `std::cv_status::timeout`,
    `cv false` is `std::cv_status::no_timeout`. -/
inductive Val
  | unit
  | bool (b : Bool)
  | nat (n : Nat)
  | int (i : Int)
  | ids (l : List Nat)
  | cv (timedOut : Bool)
  | fs (s : FStat)
  | exn (e : Exn)
  | anyRes (index : Option Nat) (l : List Nat)   -- when_any_result: index (none = size_t(-1)) and futures
  deriving DecidableEq, Repr

end Itc
