import Mathlib.Logic.Function.Basic
import Verif.Model.Cache
import Verif.Model.Res

/-!
# Model of the sample cache of a `FastWaveletTransform` used by several threads

Sources: `src/dsp/transform/wavelet/fast_wavelet_transform.cpp`:84-115, `include/k52/common/cache.h`.

`Transform` and `TransformOneScale` are `const`, but both fill and read the cache of the object.  Here any number of threads run
`GetWaveletSamplesForConvolution` of one object.  A step is one call of a public method of the cache: as if each of these methods took a mutex.  (They take
none; two of them running at once is a data race on the map.  The Fourier transform of the object is used by several threads in
`Verif.Model.FftThreads`.)

`K` are the keys (wavelet, scale, length), `f k` the samples computed for the key `k` (`CalculateWaveletSamplesForConvolution`, a function of the key while no
wavelet is changed).
-/

namespace K52.FwtThreads

variable {T K V : Type}

/-- Where a thread is. -/
inductive Loc (K : Type)
  /-- outside `GetWaveletSamplesForConvolution` -/
  | idle
  /-- about to call `IsCached`, fast_wavelet_transform.cpp:89 -/
  | check (k : K)
  /-- about to call `GetCachedValue`, fast_wavelet_transform.cpp:91 -/
  | get (k : K)
  /-- has computed the samples, about to call `AddValue`, fast_wavelet_transform.cpp:95-98 -/
  | add (k : K)

/-- The cache, where the threads are, and what their calls gave (oldest first). -/
structure S (T K V : Type) where
  cache : Cache.State K V
  loc : T → Loc K
  log : List (T × K × Res V)

variable [DecidableEq T] [DecidableEq K] [Inhabited V]

/-- Before the first call; `Create`, cache.h:62-73, made the cache. -/
def S.init (c : Cache.State K V) : S T K V := ⟨c, fun _ => .idle, []⟩

/-- A thread enters the function. -/
def S.begin (s : S T K V) (t : T) (k : K) : S T K V := { s with loc := Function.update s.loc t (.check k) }

/-- A thread leaves the function. -/
def S.leave (s : S T K V) (c : Cache.State K V) (t : T) (k : K) (r : Res V) : S T K V :=
  ⟨c, Function.update s.loc t .idle, s.log ++ [(t, k, r)]⟩

/-- A step of thread `t`.  A usage counter that overflows is undefined: there is no step. -/
inductive Step (f : K → V) (t : T) (s : S T K V) : S T K V → Prop
  /-- fast_wavelet_transform.cpp:89, found -/
  | found (k c) : s.loc t = .check k → Cache.isCached s.cache k = (c, .bool true) →
      Step f t s { s with cache := c, loc := Function.update s.loc t (.get k) }
  /-- fast_wavelet_transform.cpp:89, not found; then 95 -/
  | missing (k c) : s.loc t = .check k → Cache.isCached s.cache k = (c, .bool false) →
      Step f t s { s with cache := c, loc := Function.update s.loc t (.add k) }
  /-- fast_wavelet_transform.cpp:91 -/
  | hit (k c v) : s.loc t = .get k → Cache.get s.cache k = (c, .value v) → Step f t s (s.leave c t k (.ok v))
  /-- fast_wavelet_transform.cpp:91, the exception of cache.h:93 -/
  | lost (k c) : s.loc t = .get k → Cache.get s.cache k = (c, .threw) → Step f t s (s.leave c t k (.throw "Attempt to get uncached value"))
  /-- fast_wavelet_transform.cpp:98, 100 -/
  | stored (k c) : s.loc t = .add k → Cache.add s.cache k (f k) = (c, .done) → Step f t s (s.leave c t k (.ok (f k)))
  /-- fast_wavelet_transform.cpp:98, the exception of cache.h:132 -/
  | full (k c) : s.loc t = .add k → Cache.add s.cache k (f k) = (c, .threw) →
      Step f t s (s.leave c t k (.throw "Unable to clear cache up to limit"))

/-- The states that clients lead to who only begin calls that `may` allows. -/
inductive Reach (f : K → V) (may : S T K V → K → Prop) (c₀ : Cache.State K V) : S T K V → Prop
  | init : Reach f may c₀ (S.init c₀)
  | call {s} (t k) : Reach f may c₀ s → s.loc t = .idle → may s k → Reach f may c₀ (s.begin t k)
  | step {s s'} (t) : Reach f may c₀ s → Step f t s s' → Reach f may c₀ s'

/-- The threads in `schedule` make one step each, in this order. -/
inductive Runs (f : K → V) : S T K V → List T → S T K V → Prop
  | nil (s) : Runs f s [] s
  | cons {s s' s''} (t ts) : Step f t s s' → Runs f s' ts s'' → Runs f s (t :: ts) s''

end K52.FwtThreads
