# Design of the formal model of AWL

Source: `/repo` (dmitriano/Awl, pinned commit), read as text.  Model and proofs: Lean 4 under `lean/Verif/`.

## Conventions

* One directory per component: `Verif/<Component>/Model.lean` (functions that follow the C++ code, each citing
  file and lines), `Verif/<Component>/Lemmas.lean` (helper lemmas), `Verif/<Component>/Spec.lean` (the independent
  specification, when it is more than a line) and `Verif/<Component>/Props.lean` (the property theorems and the
  `example`s that show that their hypotheses can be met).
* Undefined behaviour, exceptions and normal results are three different outcomes: `Res.ub`, `Res.throw e`,
  `Res.ok a` (`Verif/Common/Res.lean`).  A theorem that says `= .ok v` therefore also says "no undefined behaviour
  and no exception".  `assert` in the C++ code is disabled in release builds; the model treats a violated assert as
  whatever the code does after it, which is `ub` where that is a bad memory access.
* `size_t` counters that the properties do not stress are unbounded `Nat`; where wrap-around matters (decimal
  mantissa, `uint8_t` digit counters, CRC, stop_token state word) fixed width arithmetic is modelled explicitly.
* When the code violates the property as a user would state it, the file contains (1) a theorem with suffix
  `_violated` (a concrete witness that the property is false for the code) and (2) a theorem with suffix `_partial`
  that proves the property under the weakest side condition we found.  The manifest status is then `partial`.

## Trusted base

* The Lean kernel (4.33.0) and the axioms `propext`, `Classical.choice`, `Quot.sound`; every property theorem depends
  on a subset of these (checked with `#print axioms` by `tools/audit.sh`).  No axiom, `sorry`,
  `native_decide`, `bv_decide` is used.
* That the model functions describe the C++ code.  Each definition cites the lines and says where it simplifies.
* The C++ language rules used by the models (placement new, object lifetime, order of evaluation, member
  destruction order), the standard library containers, `std::mutex`, atomics as sequentially consistent steps,
  the operating system's file semantics (see C43).

Per component, in addition (each item is also stated in the comment at the head of the model):

* Ring, lists, observers, tree: one thread; element operations do not throw unless the property says so; allocation succeeds.
* Update queue: `std::mutex` gives mutual exclusion and sequential consistency; there is one consumer.
* Decimals: `std::ostream`/`istream` formatting is that of the "C" locale; the bit-field layout of `DecimalData` is the one of the
  x64 ABIs; the mantissa is computed modulo 2^width as the unsigned type does.
* Serialization: x64, little-endian, `size_t` of 8 bytes; unordered containers iterate in insertion order; `resize` throws beyond a
  limit `cap` (parameter).  Version tolerant format: the tables of types and their names are parameters (`Schema`, `nm`); the C++
  stack is deep enough.
* Streams: a failed `assert` in `Write` counts as undefined; an exception that leaves a destructor ends the program; underlying
  streams are parameters (`Src`, `Sink`).  CRC-64 is computed on bit vectors.
* Storage: a completed flush is durable, directory entries are durable, a crash leaves any state the crash model allows; `Read`
  leaves the value alone if it throws.
* Guards, pointers: a moved-from `std::function` is empty, self-move of it does nothing.  Comparators do not throw.
* Text: `tolower` and white space of the preprocessor are parameters.  Bit map: `std::bitset` is a bit vector.
* Aggregator, object pool: one thread, the handler and `Finalize` are not re-entered, asserts are compiled out.
* Interval map: `std::map` is a sorted list; keys are integers `lo … hi`, increment beyond `hi` wraps or is undefined.
* Time queue: `priority_queue::top` is given by its contract (`Queue`); time is an integer.
* Test runner: locale classes, regular expressions and the reader of the configuration are parameters; `stoi` as in the "C" locale.
* Coroutines: which of the running coroutines acts next is open; locals are destroyed with their frame.
* Stop state, sleep: sequentially consistent memory; the intrusive list is a `List`; a caller of `request_stop` holds a source for the
  time of the call; callback objects are destroyed once, after their constructor returned; fewer than 2^31 references of each kind.
  The models of the sleep and of the interruptible wait use `stop_callback`, `mutex` and `condition_variable` as atomic specifications;
  the wait: one stop state, one condition variable, one lock of the user, the predicate reads a variable changed under the lock.
* Generators: one thread; the body reaches its next suspension; a generator is not destroyed while a consumer awaits it, and one consumer awaits it at
  a time (the code does not check either).
* File stream: `read`, `write`, `lseek`, `ftruncate`, `fstat` as POSIX specifies them, one process, no interruption by signals; the largest
  number of bytes per call (`lim`) and the room on the disk (`room`) are parameters.
* Settings: a stream that is not open throws from every call; a failing primitive operation has no effect.
* Joining threads: `std::thread` as a specification (`terminate` is `ub`); an object is not used by two threads at the same time.
* Watch dog: stop tokens, the stop callback and `sleep_for` as atomic specifications (C56, C57); `m_log` returns.
* Singletons: `std::shared_ptr` and `std::weak_ptr` as specifications; a holder is counted, not named.
* Types: a C++ type is a tree, `std::is_same` is equality of trees; overload resolution and concepts of `type_descriptor` and `type_collector` are replaced by a match on the outermost part; raw pointers and multiprecision numbers are left out.
* Shared handles: `DuplicateHandle` and `CloseHandle` as documented by Windows (-1 is the pseudo handle of the current process; a failed duplication does not write its target).
* Factories: deduction of `Args` follows [temp.deduct.call] for arguments of a type without conversions; functions are numbers, calling one is not modelled.
* Multiprecision: `export_bits`, `import_bits`, `negate` and masks of Boost as documented; what `import_bits` does with too many bits or no bytes is a parameter.
* Math: floating point numbers are rationals with exact addition (rounding errors of `f + 0.5f`, infinities and NaN are not modelled).
* Standard streams: `std::istream::read`/`gcount` and `std::ostream::write` as in the standard with the exception mask 0; a file buffer with some room before a device of some capacity.
* Assertions: the usual arithmetic conversions with an `int` of 32 bits.
* Fixed strings: characters are integers, hashes are of characters of one byte.
* Times: `steady_clock` and `system_clock` count nanoseconds in 64 bits; `duration_cast`, `hh_mm_ss` and its output as in their standards; `mktime` gives a moment at which the local clock shows the date and time, if there is one; floating point durations and units that are not powers of ten of a second (for printing) are left out.
* Doubles (C125-C127): `double` is IEEE binary64 with rounding to nearest, ties to even, and no excess precision; infinities, NaN, the limits of the exponent and the sign of zero are left out (the numbers in the theorems are far from these limits, except that decimals below 2^-1022 do not exist).
* Texts (C128, C129): the C library functions `wcsrtombs` and `mbsrtowcs` as in the standard for encodings without shift states; a string of `(size_t)-1` characters throws `std::length_error`; streams adjust to the right. The Visual C++ branch is left out.
* Interval map iterators (C130): iteration over a map that is not const (the const functions do not compile); assertions off; promotions and wrap-around of the integer types as in the standard.
* Memory of vector sets (C131): of a node only key and address are kept, a key is found exactly if it is in the set (C01); taking memory succeeds and gives an address not used before; comparing and destroying do not throw; allocators compare equal exactly if they are the same number, and only memory of `std::allocator` may be freed with `delete`.
* Decimals and integers (C132): as for doubles (C125); an integer is converted to double with rounding to nearest; conversions between integer types are modulo a power of two (C++20).
* Plain waits (C133): as for C95; `std::shared_ptr` is the set of its owners; sequentially consistent memory; `wait_for` is `wait_until` with the time added.
* Floating point (C134–C136): IEEE 754 rounding to the nearest, ties to even, in the precision of the type after every operation (no excess precision, no fused operations); infinities, NaN, the sign of zero and the limits of the exponent are left out; `duration_cast` converts, multiplies and divides in the common type as in [time.duration.cast]; `Real.pi` of Mathlib.
* Windows file streams (C137): `ReadFile`, `WriteFile`, `SetFilePointerEx`, `GetFileSizeEx`, `SetEndOfFile`, `FlushFileBuffers` and `GetFinalPathNameByHandle` as documented; `assert` does nothing.
* Opening files (C138): access(2), open(2) and `CreateFile2` are single steps on one directory without links; a denied name stays denied; descriptor numbers are not reused; each storage belongs to one thread.
* Pooled objects that use the pool (C139): one thread; constructors do not use the pool; `Finalize` and destructors do not throw; the pool outlives the pointers (else `c53_pool_first_violated`); objects given with `add` are not modelled.
* Observers that throw (C140): other observers touch neither the set nor the subscriptions, and throw or not depending on the event only; mirrors have no observers of their own; a mirror whose reflect throws is destroyed.
* Settings by name (C141): one directory without links, POSIX semantics of remove, an operation of the file system that fails has no effect, calls do not overlap, objects are not moved (C101), nobody else changes the files.
* Stop tokens as objects (C142): calls do not overlap, callbacks do not touch the objects, `new` does not fail; on top of the accesses of C94.
* Versions of types (C143): as C36 and C105; both programs have the same comparators under the same numbers; containers change only to containers that are read in the same way.
* Updates (C144): as C43, C44, C87 and C143; writes reach the disk in order (`inOrder`) in the theorem about settings; the recursion of the reader is bounded by a number that is large enough.
* `vector_set` in memory (C145): the memory of one set; a new node gets an address that has not been used before; element constructors, the comparison and the allocator do not throw; assertions are not evaluated; counters are unbounded; elements are not changed through iterators.
* Exceptions in `vector_set` (C146): as C145; destructors and `deallocate` do not throw; `std::allocator`, so that the `std::unique_ptr` of `emplace` frees a node as `DestroyNode` does; the constructor of an element that throws has freed what it had taken itself.
* Exceptions in `ring` (C147): as C01; destructors and `deallocate` do not throw; a moved-from element is a function of the element; a constructor that throws leaves the element that it should have moved from as it was; the two rings of an assignment have different buffers.
* Exceptions and `foreign_set` (C148): as C21; a `foreign_set` throws only for lack of memory in `OnAdded` and is then unchanged (C146); `foreign_set`s and groups have no observers of their own; other observers touch nothing; all `foreign_set`s have the same types of keys.
* Observers of groups (C149): as C21; the callbacks of the observers touch neither the sets nor the subscriptions; the source sends an addition after and a removal before it happens, with distinct primary keys (C19).
* Exceptions and `interval_map` (C150): moving a value, copying and comparing keys and erasing nodes of `std::map` do not throw; `emplace` that throws leaves the map as it was.
* References into an `interval_map` (C151): nodes of `std::map` stay where they are until erased; reading a destroyed value is undefined, also if it is of a trivial type.
* `CopyV` (C152): the vector and measuring streams take and give the bytes as C42 proves; `reserve` throws one exception when there is no memory, and the writes after it do not.
* Text of durations and hash values (C154): `ostream` pads strings and numbers to the width, writes digits in lower case and has the other flags of a new stream; `steady_clock` counts nanoseconds.
* Collections as text (C155): `>>` of integers and characters as the standard says for a new stream in the "C" locale: white space skipped, longest run of sign and digits taken, failure without digits or out of range, negative numbers modulo 2^bits for unsigned types. `bool`, wide characters and floating point elements are not modelled.
* `Save` with a mutex (C156): the mutex excludes; memory accesses under it are seen in order; the threads that change the value hold the mutex while they do (a precondition); every saving thread has its own storage, since a storage is not locked. `Write` of a value is a reader whose next address depends on the bytes read before.
* Three versions (C157): the model of C143; new objects made by the reader inside containers are `dflt` of Serialize, that is, without member initializers.
* The log (C159): the texts of times are parameters; that they have no tab and no line feed (besides the one at the end of `ctime`) is a hypothesis. Several threads are modelled as any mixture of the single outputs `<<`, each of which is atomic. `std::endl` only writes the line feed. `LogString` with Qt and `Char` = `wchar_t` are left out. The output of times with Clang is the operator of `Awl/Time.h`, as where the library has none of its own.
* Streams in a fixed memory (C161): a number is the list of its bytes, its alignment is its length. That bytes may be accessed as numbers at all (the objects in the memory of `new uint8_t[]`) is taken for granted; the addresses of the caller's buffers are parameters and those buffers are long enough.
* The space of blocks (C162): `new` gives an address that is in no block in use. The converting constructor of `TrivialAllocator` (its friend declaration names another class, so it does not compile when it is used) and containers with this allocator are left out.
* Reflection (C164): the rule of the preprocessor for `#` (white space between tokens becomes one blank, white space at the ends is removed) is taken from the language standard; members are identifiers, so expressions as members (`a.b`, calls with template arguments) are left out.
* `y_combinator` (C165): closures and `std::function` copy what they capture, as the language says; arguments are passed by value; the functor does not copy the function it is given.
* Ranges of integers (C166): `std::views::iota` with the precondition of [range.iota.view]; `size()` and reverse iteration of the view are not modelled.
* Traits (C167): the choice of partial specializations by exact match and `std::decay_t` as the language says; no references, no deleters with a pointer type of their own.
* Ring (C01-C04, C61): addresses are numbers, so that `address` may go beyond the buffer before it is adjusted; what the language says of that is C168.
* Graph (C170): one type of objects (a number and a vector of pointers); the stack is a number of objects, an overflow undefined behaviour; `make_shared` does not fail, and objects are not freed.
* ObservableSet/Reent (C171): subscriptions do not change during calls (C16, C17), observers read the reference they are given, nesting deeper than the given depth is reported as such.
* ObservableSet/Mirrors (C172): the mirrors have no observers of their own (C20), all the sets have one order and all the mirrors another one, no allocation fails, and what the state is after a mirror throws is not modelled (C140).
* VectorSet/Comp (C173): a comparator is a value that stands for an order or throws, moving it leaves a value given by a parameter; the state after an exception is not modelled (C146).
* ForeignSet/Moves (C174): as ForeignSet (C21); the foreign sets have no subscribers of their own there, and a parameter says whether key getters survive being moved from.
* QuickList/Iter (C175): as QuickList (C12); an element is its address, so `static_cast` from link to element is the identity.
* QueueMem (C176): as QuickList (C12); one thread (the interleavings are those of C22, C71); the captures of a `std::function` are an instance number, `std::function::operator=` has the strong guarantee; `new` that fails is not modelled.
* Tuples (C177): the elements have one type in the model, what a call can change is its state; the order in which a compiler evaluates the arguments of a call is a parameter (not interleaved); `sizeof_tuple`, `make_universal_tuple`, `make_similar_tuple` and the `transform_t2t` family (constructors instead of functions) are not modelled.
* Convert.Win (C178): the specification of `wcsrtombs_s` and `mbsrtowcs_s`; encodings as in C128 (no shift states, no pairs of UTF-16).
* MpDec (C179): arithmetic of Boost.Multiprecision as documented (unchecked unsigned integers of a fixed number of bits wrap, division by zero throws, signed integers have sign and magnitude); `sizeof` of the type is a parameter; nothing goes through `double`.
* StorageMove (C180): open(2) gives the lowest descriptor that is not open; nothing but open(2) fails; a file is read and written at once; one thread.
* TypeMap (C181): as Vts; std::unordered_map is a list of pairs with different keys.
* IoMsg (C182): as Vts; `awl::Char` is char and numbers are printed with the classic locale; a structure is read for the first time (the map is not yet in the cache).
* Single (C183): as Double; operations on floats and doubles are done in their own format (no excess precision, FLT_EVAL_METHOD 0), float overflow and subnormal floats are left out.
* Destructible (C184): lifetimes by the C++ standard; an object of a type that is not trivially copyable neither comes to life by a copy of its bytes nor survives being written over.
* C185: as Storage, StorageFmt and HashStream; the damage happens while no process has the files open.
* C186: as C185; the largest size for which `resize` succeeds is a parameter, allocation of single elements does not fail.
* C187: as C57 (sequentially consistent memory, `std::condition_variable` as a specification); the lock of the stop state makes taking a callback, registering it and removing it one step each (C56).
* C188: the operator of strings of the standard library as a specification (fills up to the width, resets it); adjustment to the right; narrow and wide streams alike.
* C189: the overloads of `operator <<` for `unsigned char`: narrow streams write a character, wide streams promote to `int`; `what()` ends at the first zero.

## Plan per property

| id | what is modelled | how it is proved |
|----|------------------|------------------|
| C01 | `ring` as buffer of optional slots + head offset + size; every member function; destroying/reading an empty slot is `ub` | representation invariant + refinement to a bounded deque on `List`, induction over operation histories |
| C02 | `reserve` | loop invariant, refinement |
| C03 | `at`, `check_index` | decision logic; the code accepts `i = size()`: `_violated` + `_partial` |
| C04 | copy, assignment, `==`, iterators | refinement |
| C05 | red-black tree as zipper with stored colours and stored counters, functions one to one with the code | invariants by induction over histories, refinement to a sorted list |
| C06 | counters `UpdateCount` with early stop | counter invariant through rotations and removal |
| C07 | the in-order list next to the tree | invariant list = in-order traversal |
| C08 | colours in insertion | red-black invariants through `BalanceAfterInsert`; height bound |
| C09 | removal without rebalancing of removed black leaves | `_violated` by a family of witnesses; `_partial` insert-only |
| C10 | null pointers in zipper steps are `ub` | invariant (root black) for insertion; for removal search for a reachable null sibling |
| C11 | aliasing assignment | ring: proved; vector_set: `_violated` (self assignment empties) + `_partial` |
| C12–C15 | pointer level heap `Addr → (next, prev)`, sentinels | separation-style predicate `IsList`, frame lemmas |
| C16–C18 | `Notify` loop over the same heap with an arbitrary callback transformer | loop invariant; C17 `_violated` (callback that removes the next observer) |
| C19–C21 | observable set as vector_set spec + event trace | induction over histories |
| C22–C24 | thread-level transition system of Push / swap / apply | inductive invariant over all interleavings |
| C25–C30 | decimal as (sign, digits, mantissa) with modular mantissa | exact integer arithmetic in `Int`/`Rat`; `_violated` where the code wraps |
| C31–C33 | universe of types, encoder and decoder | induction over type codes |
| C34 | `to_array`/`from_array` | induction over width |
| C35–C37 | writer/reader prototypes and field maps | induction over structure types; C37 `_violated` (cached empty map) |
| C38–C40 | hash streams as state machines | induction over blocks and chunks |
| C41 | table, `Calc` | table checked against bitwise division for all 256 bytes by kernel computation, lifted to all messages by linearity |
| C42 | buffered, vector streams | induction over chunks |
| C43–C45 | two files, crash = arbitrary prefix of the effect sequence | case analysis over crash points, arbitrary format with prefix property; C45 `_violated` |
| C46 | guard objects | induction over histories; `_violated` for moves |
| C47–C48 | comparators | order laws |
| C49 | `position_changed` | list lemma |
| C50 | `MemberList` splitting, enum look-up | list lemmas |
| C51 | `interval_map` over the right-key map | refinement to partial functions; `_violated` (merging across a gap) |
| C52 | bitmap | refinement to sets |
| C53 | pool with shared pointers | invariant over histories |
| C54 | aggregator | invariant; `_violated` (repeated set) |
| C55 | time queue | `_violated` + what holds |
| C56 | stop state word and callbacks | transition system, inductive invariant |
| C57 | sleep and stop threads | transition system, `_violated` + fairness-free `_partial` |
| C58 | task frames | invariant over histories |
| C59 | command line parser | induction over arguments |
| C60 | exit code | `_violated` |
| C61 | `push_back(const T&)` with an argument inside of the ring | case analysis; `ub` exactly when the overwritten slot is the argument |
| C62 | move constructor/assignment of `ring` | `_violated`, safe operations `_partial` |
| C63 | iterators of `vector_set` as node addresses | frame lemma over histories |
| C64 | `lower_bound`/`upper_bound` with a key type | refinement to list bounds; `_violated` |
| C65 | `==` and `<=>` of sets | list lemmas |
| C66–C68 | pointer level lists: `clear`, self splice, self move of `Observable` | `_violated` on the heap model, `_partial` |
| C69 | construction and destruction log of `ring` | ghost log, induction over histories |
| C70 | events of `observable_set` against a mirrored set | induction over histories |
| C71–C72 | blocks and functions owned by the update queue | ownership invariant over interleavings |
| C73–C77 | decimal `*`, `from_seconds`, limits, `-`, mantissa access | integer arithmetic |
| C78–C81 | length limits, arbitrary bytes, time points, failed reads | induction over type codes, `ub` excluded |
| C82–C85 | hash stream failures, arbitrary bytes, bursts, short reads | state machine invariants; polynomials over bits |
| C86–C89 | storage: failed load, header, snapshot, trailing data | case analysis over file contents |
| C90 | `unique_ptr` | refinement to an ideal owner |
| C91–C92 | case-insensitive order, separators | order laws, list lemmas |
| C93 | formatter/parser of attribute values | round trip for all values |
| C94 | reference count word of the stop state | invariant over all orders of atomic operations; `_violated` |
| C95 | interruptible condition variable: any number of waiting, notifying, stopping threads | invariants by induction over interleavings; termination measure |
| C96 | generator coroutines, iterators, generator objects by address; the body is a transition function | invariant over histories, refinement to the sequence of the body; `_violated` (`begin`) |
| C97 | producers, consumers, awaits; external events resume producers; generators destroyed while awaited | invariant over histories |
| C98 | one file: bytes and position; system calls with a limit per call and room on the disk | list lemmas; `_violated` (`End`, large writes) |
| C99 | handles by variable, set of open descriptors | ownership invariant over histories; `_violated` (self move) |
| C100 | optional storage: the storage may be closed, any primitive operation may fail | case analysis; `_violated` (`Load` of a closed storage) |
| C101 | objects by address, the serializer has the address of its value | invariant over histories; `_violated` (move) |
| C102 | objects, threads, joins as a transition system of any number of threads | inductive invariant; `_violated` (self assignment) |
| C103 | owner, watching thread, clock and user as a transition system | inductive invariant; `_violated` (`m_log` outside of its lifetime; destruction that takes the timeout, by the model of C57) |
| C104 | weak pointer and holders; a call is two steps (lock, make) | invariant over histories; `_violated` (overlapping calls) |
| C105 | types as trees; collector, variant, prototypes as functions; `none` = does not compile | induction over types: `Described`, composed with C35; `_violated` (pair fields, only structures, extra types) |
| C106 | names as byte strings; shapes | unique decoding of names by induction; composed with C37; `_violated` (equal names) |
| C107 | a class as the list of its members' operators; comparison of tuples; CombineHash on 64 bit words | induction over the members |
| C108 | table of open handles, variables; all calls as steps; a variable never written as a distinct value | invariant (owned exactly once) over all histories; `_violated` (empty, self, failed) |
| C109 | pointers of the links, alive objects; all calls as steps | refinement to stacks (paths of pointers) by induction over histories; `_violated` (clear, destroyed element) |
| C110 | chains per type on the model of C109; deduction of Args from arguments | invariant over registrations: the chain is the log; `_violated` (inexact arguments, duplicate names, ended links) |
| C111 | length byte with sign, magnitude bytes; streams as byte lists | round trip for all values; `_violated` (1024 bits, equal type names) |
| C112 | masks and shifts on integers of n bits | bit by bit for all n; `_violated` (exponent too large) |
| C113 | rationals, conversion towards zero, range of the integer type | floor and ceiling; `_violated` (negative numbers) |
| C114 | types as trees; the metafunctions as recursive functions that may not compile | flattened list of fields; `_violated` (structures as fields, empty structures) |
| C115 | state bits and position of an input stream; buffer and device of an output stream | runs compared with plain lists; `_violated` (failed streams, no flush) |
| C116 | how a function ends (returns or throws a class), class hierarchy as a preorder, integers with the usual conversions | case analysis; `_violated` (bases of TestException, mixed signs) |
| C117 | output buffer and last output of the map, runs of tests | induction over the runs; `_violated` (other exceptions, second use) |
| C118 | arrays as lists, loops with reads and writes that may be out of bounds | loop lemma for all lengths; `_violated` (arrays without terminator) |
| C119 | CRC64 of the bytes (C41) and integer from bytes | injective on 64 bits, linear over xor; `_violated` (collisions, leading zeros, larger arrays) |
| C120 | the reader of C36 over arbitrary bytes; a reader with the missing test beside it | invariant of the cache of maps, safety of the reader with tests by recursion over types and stream length, simulation of the two readers; `_violated` (index only asserted) |
| C121 | plain reader over the model of C34-C36 | exact reading of what was written, by recursion over types; safety over arbitrary bytes as in C79; `_violated` (other versions) |
| C122 | stop watch on a clock of 64 bit nanoseconds, duration casts of rational periods | arithmetic; `_violated` (fine and long intervals, 32 bit counts) |
| C123 | text of `hh_mm_ss` as a list of characters | digits of the parts, unambiguous reading of the text; `_violated` (parts, smallest duration) |
| C124 | `mktime` as any inverse of what the local clock shows (and, computed, with a constant zone), `from_time_t`, `time_point_cast` | induction over the successor of calendar dates; `_violated` (years from 2263, failure of `mktime`) |
| C125 | rational model of binary64 rounding (nearest, ties to even); conversions of Decimal.h | error analysis of two roundings; `_violated` (0.29, more than 2^53) |
| C126 | `make_*` over the same model | error bounds, exactness when the product is a double; `_violated` (0.15, 0.01, large numbers) |
| C127 | arithmetic with doubles over the same model and that of C25 | error bounds; `_violated` (times one) |
| C128 | `wcsrtombs`, `mbsrtowcs` over a parameter encoding; UTF-8 in full | induction over the text; `_violated` (zeros) |
| C129 | loops that count and print digits, stream with width and fill | induction over the digits of `Nat.digits`; `_violated` (long numbers, signed numbers) |
| C130 | the iterator of the interval map over the list of intervals; the index as a machine integer of the key's difference type | induction over the intervals and the index; `_violated` (signed keys, reverse) |
| C131 | sets, blocks with their allocators, all calls that take or give memory | invariant by induction over the calls; `_violated` (exceptions, list constructor, emplace) |
| C132 | assignment, factory functions and casts with integers, through doubles (as C125) | error bounds of the rounding; `_violated` (large integers, narrow types) |
| C133 | interleavings of waits without a token, notifications and the destructor, with the shared pointer to the internals | invariants by induction over steps; use after destruction is `ub` |
| C134 | rational numbers with p+1 binary digits and rounding to nearest, ties to even, after every operation | error analysis by exponent; witnesses for the three kinds of wrong results |
| C135 | the same, against the real number π of Mathlib | relative errors composed; exactness of powers of two |
| C136 | the same, with `duration_cast` as the standard defines it | relative errors composed; nearest representable numbers |
| C137 | the stream on a file as bytes and a position, or no file; the calls of Win32 as specifications, a full disk answers in any way | case analysis; equality with the POSIX model of C98 where that returns; witnesses |
| C138 | the steps of Open (access, open, flag) of many threads over a file system with names and files, acts of another process in between | invariant on descriptors and owners; frame lemma for the acts of others; witnesses by evaluation |
| C139 | the pool with a stack of running Finalize, destructors and clear; any act of user code between the steps | invariants by induction over the history; a second one for histories in which Finalize takes nothing; witnesses |
| C140 | the source and a list of observers (mirrors over the tree model, others that throw at chosen events); Notify stops at the first that throws | case lemmas for each operation, invariant by induction; fixed point of erase for the violation |
| C141 | a directory of files, objects with descriptors, calls with failures chosen for every operation; contents of files as in C43 | invariant: every file was made under one name; what is stored under a name is kept by every other call; `_violated` by histories |
| C142 | stop states with their words as in C94, objects with pointers; every member function as its accesses to the words | refinement to values that name flags, invariant that the counts are the numbers of objects, progress under the stated care; `_violated` by programs |
| C143 | C36 and C105 together: changes of C++ types as an inductive relation without tables, tables derived by the model of C105 | induction over the changes gives the relation of C36 and that all type names are known; fields by name from the conversion of C36; `_violated` by evaluation |
| C144 | C43, C44 and C143 together: the storage, hashed stream and header with the format of one program for `Save` and that of another one for `Load` | the invariant of `Save` (C43) with the reader of the other format; C143 for the converted values, type soundness of the conversion so that the new program can write them back; `_violated` by evaluation |
| C145 | the functions of `vector_set` statement by statement on memory: nodes with `parent`, `left`, `right`, `color`, `count`, `value` and a `quick_link`; null and freed pointers are `ub`, as are loops that do not end | refinement of the model of C05: every function keeps the relation between the memory and a tree with a path of ancestors; `Holds` states the result without the tree |
| C146 | the functions of C145 that call the user's code, where the call number `n` of a comparison, constructor or allocation throws; blocks without an object are kept apart | every call either does what the function without exceptions does or leaves the relation of C145 to the same set, with one more node or block besides; induction over programs that catch exceptions |
| C147 | the functions of C01 that call the user's code, where `k` of these calls return before one throws; moved-from elements, lost buffers and the elements in them are kept | the relation of C01 between ring and deque is kept by all calls that throw except the pushes; for those a second relation where a counted position is raw memory, from which destroying is undefined behaviour; induction over programs, positions and the copying loops |
| C148 | a source with any number of `foreign_set`s (the handlers of C21) and other observers in the order of subscription; each operation comes with the observers that throw | refinement by induction over programs to a specification that keeps, for each observer, the elements it knows; every removal of an unknown element is proved to be undefined or to forget another element |
| C149 | the handlers of C21 with the calls of the observers of the groups; subscription through `find`, unsubscription; destruction of a group | invariant by induction over programs: who is in the list of which group, and that what each observer knows replays to the contents of its group; the events due are stated from the set of elements and the key watched alone |
| C150 | `assign` with an oracle that says at which allocation, copy or comparison it throws; histories in which exceptions are caught | the three parts are the parts of C51 or end at a fault; what each fault leaves is described by the set of keys taken out; the invariant of C51 without the merging of equal neighbours is kept by every outcome; what every key has is by induction over histories |
| C151 | `assign` with a reference into a node: the node it refers to, and whether it has been erased when the value is read | the nodes left by the cut are those of C51; the reference is readable exactly if its node is one of them and not a new one |
| C152 | `CopyV` over `writeV` and `readV` of C36/C143; `Keeps`: one C++ type has everything the other one has | conversion there and back is the identity for each constructor of types (containers, variants, structures matched by name), then induction over `Keeps`; C143 in both directions |
| C153 | `isReady` and `get` over the states of C58, programs are structured operations and `get` in any order | the invariants of C58 and one more (no result before the end of the body) are kept by every operation and by `get`; the answers are read off the log of ends and reads |
| C154 | `showDuration` and `showHash` writing to a stream with base, fill and width | induction over the units (each is a multiple, more than ten times, of the next); two digits of every byte by the full table of 256, injectivity by induction |
| C155 | `listToText` and `listFromText` (`istream_iterator`) for integers of every width and for characters | the next word of a text is what `>>` takes, by induction over the words; the round trip by the words of C93; what stops the reading by induction over the numbers before it |
| C156 | threads that lock, change and unlock, and `Save` with a mutex split into single accesses to memory, mutex and files (`Conc.step`) | invariants over all executions: who holds the mutex, what has been read is the beginning of the value, which does not change meanwhile; the file operations of a call are a prefix of `save` of it, to which C43 applies |
| C157 | the reader and writer of C143 with three versions of a type (`Via`) | reading is `convert`; induction over the three types that converting over the second type is converting at once, with fields compared by position; the two theorems of C143 give the bytes |
| C158 | `+=` and `-=` over `+` and `-` of C25, lists of entries (`posts`) | induction over the entries with the exact sum; a decimal that is not minus zero is known by its value and number of digits, and both are the same for permutations |
| C159 | `ConsoleLogger::log` with the stream (room on the device, bad), the level names from the text of the enumeration, the conversions of C128 | a reader of logs that is independent of the writer; writing piece by piece is writing the pieces at once; induction over the calls; witnesses for the violations |
| C160 | formulas over texts, evaluated with the functions of Decimal | `Calculates` says value and digits in arithmetic of rationals; induction over the formula with C25, C28, C29, C73; printing by C27 |
| C161 | `TrivialMemoryStream`, `SwitchMemoryOutputStream`, `VirtualMemoryOutputStream` with bytes at an address, the byte loop, `memmove` and the typed copies; a failed `assert` and undefined behaviour are outcomes of their own | refinement to a memory with a value at every place, by induction over the calls; the byte loop is `memmove`; the violations for all streams with too little room |
| C162 | `TrivialSpace` and `TrivialAllocator::allocate` with bytes at an address; `delete` and `delete[]` on a heap that knows how a block was made | refinement to a list of separate arrays: the memory is the arrays one after the other and then zeros, by induction over the program; witnesses for the violations |
| C163 | the `Reader` object (`oldPrototypes`, `protoMaps`) with `Initialize`, `ReadOldPrototypes`, `ClearPrototypes`, `ReadV`; assertions are a parameter; after an exception the state is any state | induction over the streams; over the objects with the invariant of the cache of C36; for `Initialize` the map of a prototype to itself is trivial, and reading depends only on what the hook does to the structures of the type; two programs that differ in the order of two members for the violations |
| C164 | the list of names with the white space around each comma, the text that `#__VA_ARGS__` makes of it (language rule), `MemberList` with its look-up functions, `for_each_index`, the table of `AttachedPrototype`, a program that stores and loads members by name | the names found are computed for every layout by induction over the list (comma and blank as parts of names), which gives the equivalence; induction over the members for storing and loading |
| C165 | the closures `action` and the one in `std::function` with their copies of the functor; bodies as programs with own and outside state, calls, results and exceptions | induction over the depth and the program: the same as the recursive function of the specification, which has one functor |
| C166 | `make_int_range`, `make_count`, conversion to `T`, `std::views::iota` and the loop over it (library specification with its precondition), `++` of every integral type | induction over the number of values |
| C167 | types as terms, the templates of TypeTraits.h as functions on them (one clause for each partial specialization), `object_address`, the pointers of foreign sets | cases over the types, compared with a specification that looks through qualifiers |
| C168 | the offset of the pointer that `address` forms before it is adjusted, as a number | invariant `data + size` ≤ number of elements pushed; exact value of `m_data` after any number of pushes |
| C169 | assignment through an iterator as a change of one node of the tree and the list, then `position_changed`, `erase(iterator)` and `insert` | refinement to a sorted list for all histories (the counters, colours and links do not depend on the values; `erase(iterator)` compares nothing); C49 for the order |
| C170 | `Read` and `Write` of `std::shared_ptr` of objects with vectors of such pointers; a heap; the stack as a number of objects | induction over the depth: what is read is new, unshared, and equal along every path; writing succeeds iff all paths end within the stack |
| C171 | `observable_set` whose observers perform arbitrary operations on it from their callbacks, nested; references to elements by the address of the node | induction over the depth of nesting: each operation is undefined only if some observer after the changing one is there, and otherwise its events replay to the contents |
| C172 | programs over families of `observable_set`s and `mirror_set`s: the operations of the sets with the calls they make handled by the mirrors in order; attaching, moving, assigning, destroying and unsubscribing mirrors | invariant over histories; one operation of a set sends each mirror events that replay the old contents of its set to the new ones (or to nothing, if it loses its set); the interleaved calls are split by mirror |
| C173 | several `vector_set`s, each with a comparator object; copying, moving, assigning of both; comparators that throw when called | refinement to pairs of an order and a sorted sequence, by induction over programs, from the refinement of one operation (C05) |
| C174 | several `observable_set`s and several `foreign_set`s, the lists of observers; construction, implicit moves (place in the list, groups, getters), assignment, destruction, subscription by hand | invariant by induction over programs: what an attached one shows are the elements of its source; uses what a set tells its subscribers in one operation (C172) and the handlers (C21) |
| C175 | iterators as pointers to links, `++`, `--`, `*`, `==`, `begin`, `end` in both directions; the loop that advances before and the loop that advances after the body, with operations of the lists as the body | the closed sequence of C12 for the heap and for the heap with the links exchanged; refinement of the loop to a walk over the mathematical lists, by induction over that walk; induction over the elements not yet visited for the removing loop |
| C176 | the queue on the linked lists of C12: blocks, links, the instance each function object holds, the steps of `ApplyUpdates` with its iterators, the deleting loops of the destructor | invariant over all histories: the heap represents three disjoint sequences, every instance is held once or gone once; induction over the part of a list not yet deleted for the destructor; concrete witnesses for the two violations |
| C177 | tuples as lists, function objects with a state and exceptions, the comma fold, the braced list, the arguments of `make_tuple` in any order, positions of types | induction over the tuple against sequences of calls (`Did`); the order as an arbitrary permutation; a concrete witness for the dependence on the order |
| C178 | `EncodeString` and `DecodeString` of Visual C++ over a specification of `wcsrtombs_s` and `mbsrtowcs_s` with sizes, counts, error numbers and the handler for invalid parameters | the two calls against the relation `Encodes` of C128; equality with the results of the other compilers |
| C179 | the functions of `decimal` over the words of `MultiprecisionDecimalData` (masks and shifts modulo 2^w, signed numbers as sign and magnitude, `sizeof` as a parameter), programs over an interface with two instances | simulation of the instance over bit fields (C25–C27) statement by statement; absence of undefined outcomes; the theorems C25 and C75 carried over; witnesses with `uint256_t` and with a product of 2^64 by itself |
| C180 | storages as variables with two handles each, descriptors given by the kernel with the lowest free number, moves of handles one by one (`Close`, take, clear), `std::swap` through a temporary object, against variables that have two names of files or none | refinement for all programs by a description of the process (files of the handles, loggers, one owner for each open descriptor); assignment to itself is proved equal to `Close` |
| C181 | the loop over the names of the tables with `type_map.find`, then the attaching of the tables (C36), against the data of a writer that had called its types by the new names | equality of the two readings for all streams (the tables are read back, C36), conversion by C36, a name that is missing stops the reading of the tables |
| C182 | the exceptions of `IoException.h` with their members and texts, `ReadRaw`, `AttachMetadata`, `MapPrototypes` and the loop of `ReadV` with the exceptions they make, the handlers of `LoadFromFile`; reading and skipping a field are parameters | the functions without the data are those of Vts (equality), texts can be decoded (decimal digits and apostrophes delimit), first unknown or removed field by induction over the tables |
| C183 | `cast<float>()` over rationals with the rounding of binary32 for the mantissa and the result and of binary64 for the quotient; `make_rounded` of Double (a float becomes a double without rounding) | binary32 numbers up to 2^24 as integers, errors of three roundings added, monotone roundings, a decimal closer than half a unit of its last digit; the violations by computing the roundings |
| C184 | `Destructible`: variables with the object whose bytes they have and whether it lives, a log of constructors and destructors; scope exit; implicit copies | refinement: object of a variable and log from the text of the program alone; invariant by induction (no two variables have one object, alive iff no destructor in the log) |
| C185 | the models of HashStream, Crc64, Serialize, Vts, StorageFmt and Storage together | the first changed block that is not consistent ends the payload, a proper prefix is rejected by every format, a rejected file leaves the value; the violation by the format of two blocks |
| C186 | the models of Serialize, StorageFmt and Storage together; a crash that leaves any bytes in a file that was not flushed | all exceptions of a reader by induction over the types; cases on what reading the backup gives; induction over the starts of the program; the violation by a length for which there is no memory |
| C187 | any number of calls of `sleep_for` and of `request_stop` with the list of callbacks of the stop state, steps interleaved in any order | simulation: each step of the system is one step or none of the single sleeping thread of C57; one winner and the list as invariants; induction over the list of callbacks for the end of the request |
| C188 | the operator of optionals over the streams of C129, with the operators of strings and 128 bit numbers | texts computed for all values; texts of numbers consist of digits and a sign, so none is `empty`; `_violated` (the word, nested optionals) |
| C189 | the messages of the exceptions as texts, with the operators of narrow and wide streams for `uint8_t` | computed for all inputs; injectivity by the fixed length of the last part or by the first blank; `_violated` for every wrong index |

## Findings

Properties that do not hold for the code as a user would state them.  Each has a `_violated` theorem (a machine-checked
counterexample) and `_partial` theorems that say what holds.  This section is generated by `tools/gen_design.py`.

* **C03** Ring at() rejects exactly the bad indexes. The code's bound check is index > size(): at(size()) does not throw (violation theorems). Everything else is proved. (`Ring.c03_at_accepts_size_violated`, `Ring.c03_at_reads_raw_memory_violated`)
* **C09** vector_set look-up stays logarithmic after removals. The code does not rebalance when a black leaf is removed: for every N a history leaves a set of at least N elements whose tree is a path. Only the linear bound holds. (`VectorSet.c09_lookup_degenerates_violated`, `VectorSet.c09_logarithmic_bound_violated`)
* **C11** Assigning a container keeps the value. Ring assignment incl. self-assignment is right; vector_set self-assignment (copy and move) empties the set. (`VectorSet.c11_vector_set_self_assignment_violated`)
* **C14** Moving a linked element keeps its place. Proved for different source and target in every constellation; self-move-assignment drops the element out of its list (violation theorem). (`QuickList.c14_self_move_violated`)
* **C17** Notify is safe whatever the callbacks do. Violated when a callback removes or destroys the next observer; proved for all other callback behaviours. (`Observable.c17_notify_any_callback_violated`)
* **C25** Decimal addition and subtraction are exact or throw. Types whose powers of ten fit. Exact characterisation of when the sum/difference is right, refused or wrong; violated for every type when the sum of two representable numbers is not representable (it wraps silently). (`Decimal.c25_add_violated`, `Decimal.c25_sub_violated`)
* **C26** Decimal comparison is the numeric order. Proved for all pairs except zeros of different sign, for types whose powers of ten fit (64/4, 128/5). Violated by -0 and by types with wrapped powers of ten (64/5). (`Decimal.c26_negative_zero_violated`, `Decimal.c26_every_zero_violated`, `Decimal.c26_wrapped_powers_violated`)
* **C28** Parsing accepts exactly decimal literals with the right value. Proved for non-empty texts with at most 255 digits behind the point, where a literal may have no digits at all; violated: empty text is undefined, '.' and '-' are accepted, more than 255 digits are misread. (`Decimal.c28_empty_text_violated`, `Decimal.c28_no_digit_violated`, `Decimal.c28_long_text_violated`, `Decimal.c28_zeros_lost_violated`)
* **C29** Changing the number of digits is exact or truncates by less than one unit. floor and ceil round toward/away from zero: right for non-negative decimals, violated for every negative decimal that has to be rounded. (`Decimal.c29_floor_ceil_violated`)
* **C33** Reading replaces the previous value. Violated by optionals, pointers, deques, sets, maps (not cleared by Read); proved for every type without them. (`Serialize.c33_optional_violated`, `Serialize.c33_collection_violated`, `Serialize.c33_map_violated`)
* **C36** Version tolerant reading maps fields by name. Proved for all pairs of versions related by Evolves, any nesting; violated when the written structure has no fields and the new one has some (an empty map is taken for a trivial one), and when a removed field has the type name of another type (c143_removed_violated). (`Vts.c36_empty_structure_violated`, `Vts.c36_every_empty_violated`)
* **C37** Incompatible field types are reported. With a new Reader every mismatch of type names is reported (as IoError). Violated: the same Reader after a failed attempt reads the fields without checks; types with equal names but different layout (vector<bool>, vector<int8_t>) are not told apart. (`Vts.c37_second_read_sequential_violated`, `Vts.c37_second_read_violated`, `Vts.c37_equal_names_violated`)
* **C45** A storage survives any sequence of failed saves. Violated: two failed saves of different values can lose everything (shown for every format whose mixtures do not parse, and for CRC-64 files). Retries of one value and a single failure are harmless. (`Storage.c45_failed_saves_violated`, `Storage.c45_all_lost_violated`, `StorageFmt.c45_crc_violated`)
* **C46** A scope guard runs its action exactly once. Violated: moving a released guard runs its action; every move assignment from an engaged guard loses an action; virtual_guard moved twice terminates. Proved for histories without these. (`Guard.c46_move_released_violated`, `Guard.c46_move_assign_violated`, `Guard.c46_moved_twice_violated`, `Guard.c46_every_guard_violated`)
* **C50** Enum text round trip. Violated when the names are written without a space after the comma: they are parsed as one name. Proved for names separated by a comma and white space. (`Text.c50_no_space_violated`)
* **C51** An interval map is a function from keys to values. Violated: intervals with the same value are merged across a gap; assigning the greatest key over an interval that begins at or behind the left end throws (or is undefined), and has removed keys by then. c51_step says exactly what a call does in every map that can arise. (`IntervalMap.c51_gap_violated`, `IntervalMap.c51_top_violated`, `IntervalMap.c51_throw_removes_violated`)
* **C52** A bitmap is a set of enum elements. Violated for the constructor from an initializer list when the enumeration has more than 64 elements (undefined shift), or for a value that is no element. Everything else is proved for every size. (`BitMap.c52_init_violated`, `BitMap.c52_init_not_an_element_violated`)
* **C53** A pool never hands out an object that is in use. Violated when the pool is destroyed while objects are in use (undefined). Proved when the pool outlives the pointers. One thread. (`ObjectPool.c53_pool_first_violated`)
* **C54** An aggregator calls its handler exactly once. Violated: setting a value again after completion calls the handler again, with the other values moved from. Proved up to then. (`Aggregator.c54_again_violated`)
* **C55** Timers resume in deadline order. Violated: the queue gives out the latest deadline first, so a timer waits for all later ones. Proved: no timer early, each resumed once. (`TimeQueue.c55_order_violated`, `TimeQueue.c55_delay_violated`)
* **C57** A cancellable sleep wakes up when stop is requested. Violated: a stop requested between the test of the flag and the beginning of the wait is lost (the callback notifies without the mutex) and the whole duration is slept. Proved: not early, not blocked by an earlier request, woken by a request outside of that window, returns at once then. One stopping thread; stop_callback as C56 specifies it. (`Sleep.c57_lost_violated`)
* **C58** A task delivers its result to the awaiter exactly once. Proved for structured programs (a coroutine awaits tasks of its own, variables are used in scope). Violated: a task released after it finished is never destroyed; awaiting somebody else's task uses a destroyed frame or waits for ever; a second await gets a moved-from value or ends the program. (`Coro.c58_late_release_violated`, `Coro.c58_lost_violated`, `Coro.c58_dangling_violated`, `Coro.c58_second_await_violated`)
* **C59** The command line parser accepts exactly option lists. Violated for names of one letter, which are not recognised. Proved for names of two characters and more, with values that do not read as such an option. (`Testing.c59_one_letter_violated`)
* **C60** The test runner's exit code tells whether the tests passed. Violated: the exit code is 1 if all selected tests pass and 0 if one fails; a malformed command line gives 0. (`Testing.c60_exit_code_violated`, `Testing.c60_bad_command_line_violated`)
* **C61** A ring can be pushed a copy of its own element. Undefined behaviour exactly when the ring is full and the argument is the element being overwritten. (`Ring.c61_push_own_element_violated`, `Ring.c61_full_ring_violated`)
* **C62** A moved-from ring is empty and reusable. A moved-from ring keeps its old size; only destroying it, reserve and assignment are safe. (`Ring.c62_moved_from_ring_violated`, `Ring.c62_every_ring_violated`)
* **C64** vector_set bounds with a heterogeneous key. Violated when several elements are equivalent to the key: the bounds are then one of them and its successor (proved), not the first and the end; proved as stated when at most one is. (`VectorSet.c64_heterogeneous_bounds_violated`)
* **C66** Elements of a cleared list are in no list. Violated: cleared elements still report included() and excluding one removes another element. Only re-insertion is safe. (`QuickList.c66_cleared_elements_violated`, `QuickList.c66_every_element_violated`)
* **C67** Splicing a list into itself changes nothing. Violated for every non-empty list: all elements are lost and still report included(); holds for the empty list. (`QuickList.c67_self_splice_violated`)
* **C68** Moving an observable to itself changes nothing. Violated for every observable with observers. (`Observable.c68_self_move_observable_violated`)
* **C70** Subscribers of observable_sets never lose track. Proved except for 'only when contents change': migrate from an empty set sends OnClearing. (`ObservableSet.c70_migrate_spurious_violated`, `ObservableSet.c70_migrate_empty_violated`)
* **C71** The update queue owns every message block it allocates. Proved when no Push throws; violated when the copy into the block throws (the block leaks). (`UpdateQueue.c71_blocks_owned_violated`, `UpdateQueue.c71_every_block_violated`)
* **C72** The update queue releases the functions of updates that are applied or dropped. Proved without ClearPending; violated by ClearPending, which keeps the functions of dropped updates alive. (`UpdateQueue.c72_functions_released_violated`, `UpdateQueue.c72_every_clear_violated`)
* **C73** Decimal multiplication is exact or throws. Exact if mantissa product and digit count fit; otherwise violated: it never throws, wraps or is undefined. (`Decimal.c73_multiply_violated`)
* **C74** Seconds to nanoseconds. Exact or refused for at most nine digits and mantissas below 64 bits; violated for more digits, and for wider decimals by an overflow. (`Decimal.c74_nanoseconds_violated`, `Decimal.c74_overflow_violated`, `Decimal.c74_more_digits_violated`)
* **C78** Length limit of strings. The limit holds for whatever is read; but the byte length of a wide string wraps around, so a huge length field passes the check and is refused only by the allocation. (`Serialize.c78_wraparound_violated`, `Serialize.c78_wrapped_violated`)
* **C79** Reading arbitrary bytes is safe. Proved for all types without variants, time points with ticks finer than a nanosecond and rings without limit. Violated by each of the three: a variant's index is not checked, the conversion of a time point may overflow (exactly when is proved), an element is pushed into a ring without places. (`Serialize.c79_variant_violated`, `Serialize.c79_time_violated`, `Serialize.c79_ring_violated`)
* **C80** Time points survive serialization. Exact for ticks that are multiples of a nanosecond; for every tick of p/q nanoseconds, a time point is read back as it was if and only if it is a whole number of nanoseconds, and otherwise one nearer to zero is (c80_exact_partial). Finer ticks are truncated (violated). (`Serialize.c80_time_point_violated`)
* **C81** A failed version tolerant read leaves the object unchanged. Holds for movable types. For types that cannot be moved: violated by sets, maps, optionals (restored by reading into the half-read object) and by exceptions that are not IoException. (`Vts.c81_set_violated`, `Vts.c81_other_exception_violated`)
* **C82** An I/O error while writing a hashed stream is reported. Violated: the destructor tries to write again, throws and the program is terminated. What is stored is a prefix. (`HashStream.c82_write_error_violated`)
* **C83** A hashed input stream is safe on arbitrary bytes. Safe up to the first exception; afterwards an invalidated iterator is used (violated). (`HashStream.c83_after_exception_violated`)
* **C84** CRC-64 protected blocks detect every burst error of up to 64 bits. Violated across the end of the payload because the reflected CRC is stored most significant byte first. (`HashStream.c84_burst_across_boundary_violated`)
* **C85** A hashed stream works over any input stream. Violated: a short read is reported as corruption. (`HashStream.c85_short_read_violated`)
* **C86** A Load that fails leaves the value unchanged. Violated when a file holds a value followed by something: the value is taken over although Load fails. (`Storage.c86_failed_load_violated`, `StorageFmt.c86_trailing_violated`)
* **C89** A file with data behind the value is not accepted. Holds for values written to the file itself; violated for hashed files: data are not noticed if and only if the last block of the value has room for them (c89_hashed). (`StorageFmt.c89_trailing_violated`)
* **C90** A unique pointer deletes its object exactly once. Violated by self-move assignment, which deletes the object and leaves the pointer null. Proved otherwise. (`Guard.c90_self_move_violated`, `Guard.c90_every_self_move_violated`)
* **C91** Comparison of text without regard to case is an order. Violated for characters outside ASCII: tolower of a negative char is undefined. Proved for ASCII. (`Text.c91_not_ascii_violated`)
* **C93** A test sees the attribute values given on the command line. Violated for unsigned int above the range of int (default used silently), for negative texts given for unsigned types, for flags and for text behind a number. Floating point is not modelled. (`Testing.c93_unsigned_violated`, `Testing.c93_negative_violated`, `Testing.c93_flag_violated`, `Testing.c93_trailing_violated`)
* **C94** The shared stop state lives exactly as long as it is needed. Violated: without a source the destruction of any token, or of a called callback, deletes the state that other tokens still use. Proved: no deletion while a source exists, no leak, and safety of histories without such a destruction. (`Stop.Count.c94_violated`, `Stop.Count.c94_callback_violated`, `Stop.Count.c94_token_deletes_violated`)
* **C96** A generator gives the values its coroutine yields. Violated: a second begin() skips a value, and begin() of a generator that has ended is undefined. Proved for everything else; one thread, bodies reach their next suspension. (`Generator.c96_begin_twice_violated`, `Generator.c96_begin_again_violated`, `Generator.c96_begin_ended_violated`)
* **C97** An asynchronous generator answers every await once, in order. Violated as C96: a second begin() skips a value, begin() of a generator that has ended is undefined; a consumer whose generator is destroyed is never resumed, and a second consumer that awaits is undefined. Proved for everything else. (`AsyncGen.c97_begin_ended_violated`, `AsyncGen.c97_begin_twice_violated`, `AsyncGen.c97_begin_again_violated`, `AsyncGen.c97_destroyed_violated`, `AsyncGen.c97_second_violated`)
* **C98** A file stream writes all or throws, and reads what was written. Violated: a write of more bytes than one call of write(2) takes throws after writing a part; a short write leaves a part in the file; End is false behind the end. Proved for positions up to the end and everything else; POSIX, system calls as a specification. (`File.c98_large_violated`, `File.c98_short_violated`, `File.c98_part_violated`, `File.c98_end_violated`)
* **C99** A file descriptor is closed exactly once. Violated: move assignment of a handle to itself closes the file. Proved for all histories otherwise. (`File.c99_self_violated`)
* **C100** Optional settings never get in the way of the program. Violated: Load after an Open that failed throws. Proved: Open and Save never throw, Load of an open storage throws only if the file system fails during the call; the same results as C43 to C45. (`Settings.c100_load_violated`)
* **C101** A persistent object loads and saves its own value. Violated for a moved object: it still loads and saves the value of the object it was moved from, which is undefined if that is gone. Proved for histories without moves; failures of the file system: C141. (`Settings.c101_move_violated`, `Settings.c101_wrong_value_violated`, `Settings.c101_moved_violated`)
* **C102** A joining thread is stopped and joined exactly once. Violated: assignment of an object to itself stops and joins its thread. Proved for everything else; std::thread as a specification, the stop state is C56. (`JThread.c102_self_violated`)
* **C103** The watch dog stops its token exactly when told to. Violated: the log function is called before it is constructed or after it is destroyed if the timeout is over in these windows; and destruction takes the whole timeout if it begins between the thread's test of the flag and its wait (C57). Proved for everything else; stop tokens as specifications (C56), sleep as a specification but in c103_quick_partial and c103_slow_violated. (`WatchDog.c103_slow_violated`, `WatchDog.c103_ctor_violated`, `WatchDog.c103_dtor_violated`)
* **C104** A singleton has one instance at a time. Violated for overlapping calls of two threads, which make two instances. Proved for calls that do not overlap. (`Singleton.c104_race_violated`, `Singleton.c104_any_number_violated`)
* **C105** The tables of version tolerant serialization are those of the type. Violated: no tables (the program does not compile) for a structure with a field that is a pair, for structures that contain only structures or nothing, and for additional types that are structures. For all other types the variant, the tables and the round trip are proved. (`Mp.c105_pair_field_violated`, `Mp.c105_only_structures_violated`, `Mp.c105_extra_violated`)
* **C106** The name of a type tells what is needed to read it. Proved: equal names exactly for equal shapes, the names in the tables, and that a field of a changed shape is reported. Violated as identification: bool and int8_t, string and vector<bool>, all structures share names. (`Mp.c106_same_name_violated`)
* **C108** A shared handle is closed exactly once. Proved for all histories: each open handle is held by exactly one variable, so none leaks and none is closed twice; copies of non-empty handles and moves; no undefined behaviour when duplications succeed. Violated: a copy of an empty handle is a handle of the current process, assigning a variable to itself closes the file (and leaves a handle of the process), and a copy that fails leaves a variable that was never written. (`SharedHandle.c108_copy_empty_violated`, `SharedHandle.c108_self_assign_violated`, `SharedHandle.c108_self_move_violated`, `SharedHandle.c108_failed_copy_violated`)
* **C109** A single linked list is a stack of its elements. Refinement to stacks for all histories. Violated: the elements of a list that is cleared (or ends) still say they are included; an element that ends in a list makes the loop undefined. (`SingleList.c109_clear_violated`, `SingleList.c109_destroyed_element_violated`)
* **C110** Factory functions are called by their name. For all sets of registrations, create calls the function registered last with the name and the type deduced from the arguments. Violated: a function that accepts the arguments but not with exactly the deduced types (a variable for a parameter that is a value, a temporary object for const T&) is not found; a second registration of a name hides the first silently; an ended link stays in the chain; a std::string with a zero character is cut. (`StaticChain.c110_inexact_violated`, `StaticChain.c110_duplicate_violated`, `StaticChain.c110_unlinked_violated`, `StaticChain.c110_zero_violated`)
* **C111** Multiprecision integers survive a round trip. For all values of the types with 128, 256 and 512 bits, and for magnitudes below 2^1016. Violated: with 1024 bits the magnitudes from 2^1016 on cannot be written (CorruptionException); all the types have the same name, and a negative value read as unsigned becomes a positive one. (`Multiprec.c111_large_violated`, `Multiprec.c111_same_name_violated`)
* **C112** The parts of a packed multiprecision decimal are independent. For all values whose exponent fits its bits. Violated: set_exp does not check, a larger exponent changes the mantissa. (`Multiprec.c112_large_exp_violated`, `Multiprec.c112_every_exp_violated`)
* **C113** Rounding, clamping and the sign of numbers. clamp and sign for all strict weak orders; round for numbers that are not negative, with exact arithmetic. Violated: every negative integer is rounded to the next one, and below -1/2 no number that is not halfway between two integers is rounded to the nearest. (`Math.c113_round_violated`, `Math.c113_round_negative_violated`)
* **C114** The fields of nested structures are counted and numbered. For all types without empty structures, and for the index of primitive types. Violated: a field that is itself a structure has no index; a type with an empty structure inside does not compile. (`TypeIndex.c114_struct_violated`, `TypeIndex.c114_empty_violated`)
* **C115** Streams of the standard library are read and written completely. Reading without failures of the device; writing when the device has room. Violated: a failed input stream gives no data and never End; bytes that stay in the buffer are lost without an exception, nothing flushes. (`StdStream.c115_failed_violated`, `StdStream.c115_lost_violated`)
* **C116** A test assertion fails exactly if what it asserts is false. Throws for exceptions that are no bases of TestException; AreEqual unless the usual conversions change a value. Violated: Throws of TestException or a base of it (std::exception) never fails when nothing is thrown; AreEqual(-1, 4294967295u) passes. (`Assert.c116_base_violated`, `Assert.c116_sign_violated`)
* **C117** The output of a failed test is shown, that of passed tests is not. For tests that fail with a TestException, in a new map. Violated: a test that fails with another exception shows none of its output; a map used again after a failure shows the output of both tests. (`Testing.c117_other_violated`, `Testing.c117_again_violated`)
* **C118** A fixed string is the text it was made of. Beyond the statement: an array whose last character is no zero loses it. (`FixedStr.c118_array_violated`)
* **C119** The hash of a text identifies it. Same hash in all forms; different texts of at most eight characters have different hashes (of any lengths with the default seed unless they begin with a zero, of the same length with every seed). Violated: every text of nine characters and more has another of its length with the same hash; a zero at the beginning is not seen; an array larger than its text has the hash of the text with zeros. (`FixedStr.c119_collision_violated`, `FixedStr.c119_zero_violated`, `FixedStr.c119_array_violated`)
* **C120** Version tolerant reading of arbitrary bytes is safe. For all types as in C79: every stream throws, or gives a legal value, or has a structure index outside its own tables. Violated: that index is only asserted, so it is undefined behaviour; a reader that tests it differs nowhere else. Violated: a stream may declare a structure with a field of its own type; skipping it needs a stack as deep as the stream is long. (`Vts.c120_index_violated`, `Vts.c120_depth_violated`)
* **C121** The reader without tables reads back what a writer of the same version wrote. All values of all types with equal versions, sequences, truncations; arbitrary bytes for checked types as in C79 (no variants, rings without limit, time points that need multiplication). Beyond the statement: an object of another version is silently misread, as the header documents. (`Vts.c121_versions_violated`, `Vts.c121_every_version_violated`)
* **C122** A stop watch tells whether an interval has elapsed. Exact for units that are whole nanoseconds; within one nanosecond for all units. Violated: intervals finer than a nanosecond elapse at once, intervals of more than 292 years and a start at the smallest time are undefined behaviour, and a 32 bit count of milliseconds is negative after 25 days. Durations with floating point are left out. (`StopWatch.c122_fine_violated`, `StopWatch.c122_long_violated`, `StopWatch.c122_min_violated`, `StopWatch.c122_wrapped_violated`, `StopWatch.c122_too_many_violated`)
* **C123** A printed duration shows the duration. For all decimal units and all counts but the smallest; with Clang the number of nanoseconds. Violated: the number of parts is ignored, the smallest duration is undefined behaviour, and with Clang so are long durations of coarse units. (`Time.c123_parts_violated`, `Time.c123_min_violated`, `Time.c123_clang_violated`)
* **C124** A time made of a date is that date. Proved for every time zone, given that std::mktime inverts the local clock; the month is counted from 0. Violated: with a clock of nanoseconds years from 2263 and before 1677 are undefined behaviour, also if the result is in seconds; if std::mktime fails, the result is the last second of 1969 and nothing is thrown. (`Time.c124_failure_violated`, `Time.c124_late_violated`, `Time.c124_early_violated`)
* **C125** A decimal converted to double and back is the same decimal. Nearest double and order for mantissas up to 2^53 and 22 digits; the way back with make_rounded for mantissas below 2^51 (15 significant digits). Violated: the assignment, make_decimal and make_truncated make 0.28 of 0.29; above 2^53 different decimals are the same double. (`Double.c125_assign_violated`, `Double.c125_digits_violated`)
* **C126** A decimal made of a double is on the side of the double that the name of the function says. As stated if the product with the power of ten is a double; for every double with an additional error of 2^-53 of the number. Violated: 0.15 truncated and floored is greater than the double, 0.01 rounded up is less, 2^59 is stored as 0 and 2^63 is undefined behaviour. (`Double.c126_larger_violated`, `Double.c126_smaller_violated`, `Double.c126_large_violated`)
* **C127** Arithmetic of a decimal with a double is exact to the last digit. Sums and differences with doubles that have the digits of the decimal are exact; otherwise off by less than one unit and 2^-53 (products and quotients 2^-51) of the number. Violated: 0.00 + 0.29 is 0.28, and 0.29 times or divided by one is 0.28. (`Double.c127_neutral_violated`)
* **C128** Text converted between narrow and wide characters is the same text. For all texts without zeros and all encodings that tell characters apart; UTF-8 and ASCII are proved to be such encodings. Violated: what follows a zero is lost. In the locale that a program starts with every character outside of ASCII throws, as std::length_error. (`Convert.c128_zero_violated`)
* **C129** A printed 128 bit number shows its digits in the given width. Unsigned numbers that are not longer than a width of two or more; signed numbers without a width. Violated: a longer number is preceded by fill characters, one fewer than it has digits; a width throws for every signed number; the smallest signed number is undefined behaviour. (`Convert.c129_long_violated`, `Convert.c129_signed_violated`)
* **C130** Iterating over an interval map visits every key once, in order, with its value. Full for unsigned keys. Violated: for signed keys narrower than int the loop throws after as many keys as the type has non-negative values; for wider signed keys a difference overflows (undefined behaviour); the reverse iterators are not implemented. (`IntervalMap.c130_narrow_violated`, `IntervalMap.c130_wide_violated`, `IntervalMap.c130_reverse_violated`)
* **C131** A vector_set gives back all memory it takes, to the allocator it was given. Full for histories without exceptions of element constructors, without emplace of an existing key in a set with another than the standard allocator, and without a constructor from a list that gets another than the default allocator. Each of the three restrictions is necessary. (`VectorSet.Mem.c131_throw_violated`, `VectorSet.Mem.c131_init_list_violated`, `VectorSet.Mem.c131_emplace_violated`, `VectorSet.Mem.c131_construct_violated`)
* **C132** A decimal made of an integer is that integer, and its integer part is its integer part. Exact if the integer and its product with the power of ten are numbers that a double and a mantissa can hold; the cast if the mantissa is below 2^53 and the integer type can hold the mantissa; comparisons if the mantissa is below 2^53 and the integer not above. Violated: larger integers are rounded or lose their upper bits without an exception; cast<int>() of 30.00000000 is -12; cast<int64_t>() of 99.999999999999999 is 100. (`Double.c132_make_violated`, `Double.c132_cast_violated`, `Double.c132_round_up_violated`)
* **C134** A floating point number is rounded to the nearest integer. Violated in floating point by the number just below one half (gives 1), by the odd integers from 2^p to 2^(p+1) (give the next integer, double from 2^52, float from 2^23) and by all negative integers (give the next integer). Proved for all other numbers that are not negative. Complements C113, where the sum is exact. (`Fp.c134_odd_violated`, `Fp.c134_half_violated`, `Fp.c134_negative_violated`)
* **C136** A stop watch tells floating point times and intervals to within the precision of the type. HasElapsed may be true up to one nanosecond early, because the interval is truncated to whole nanoseconds (c136_early_violated); c136_elapsed_partial proves it with that allowance. Complements C122, where the durations are integers. (`Fp.c136_early_violated`)
* **C137** A file stream on Windows writes all or throws, reads what was written, and goes where it is told. Violated: of 2^32 bytes and more only the rest of the division by 2^32 is written and Write returns (nothing of exactly 4 GB); a Read of 2^32 bytes gives none; Seek and Move before the beginning return and stay, because the BOOL of SetFilePointerEx is compared with INVALID_SET_FILE_POINTER; without a file Seek, Move and GetPosition return, GetFileName reads memory that is not initialised. Proved for everything else; system calls as a specification. (`File.Win.c137_write_violated`, `File.Win.c137_write_nothing_violated`, `File.Win.c137_read_violated`, `File.Win.c137_move_violated`, `File.Win.c137_seek_violated`, `File.Win.c137_misplaced_violated`, `File.Win.c137_closed_violated`)
* **C138** Opening a storage tells whether it was there and changes nothing that was. Violated on POSIX: two threads that open the same new files are both told that they are new, another process that makes a file between access and open is not seen, and storages share files. Violated on both: an Open that throws leaves the master file it made, so that the next Open answers that a file was there; the same name for both files; on Windows opening an open storage again throws. Proved: the answer if nobody else touches the two names during the call, the contents of files, descriptors, the states after success and failure for all interleavings; on Windows also that new storages are empty and files are not shared. (`File.Open.c138_race_violated`, `File.Open.c138_shared_violated`, `File.Open.c138_contents_violated`, `File.Open.c138_failed_violated`, `File.Open.c138_same_name_violated`, `File.Open.c138_reopen_violated`)
* **C139** Pooled objects may use the pool in Finalize and in their destructors. Violated: the deleter puts the object to the free list before it calls Finalize, so a Finalize that makes an object gets the object itself, one that clears the pool destroys it while it runs, and Finalize runs inside itself. Proved for all histories: places, turns of make and Finalize, make, failed make, drop, clear; the last sentence if no Finalize makes objects or clears. (`ObjectPool.Fin.c139_taken_violated`, `ObjectPool.Fin.c139_destroyed_violated`, `ObjectPool.Fin.c139_nested_violated`)
* **C140** A set and its mirrors agree also after an observer has thrown. Proved for all histories: no undefined behaviour, mirrors are subsets, clear restores, what insert and erase that throw have done; the mirrors agree if nothing was thrown. Violated: an insert that throws stays in the source and is unknown to later observers; after an erase that throws behind a mirror every further erase of the element throws; a refused element makes its mirror drop another one. (`ObservableSet.Throw.c140_stuck_violated`, `ObservableSet.Throw.c140_wrong_removed_violated`)
* **C141** Settings are found again by their names. Proved for all histories: what was saved is found whatever fails meanwhile, one failed save leaves the old or the new value, other settings are not touched, removed settings are gone, no undefined behaviour. Violated: if reading the backup fails once after a failed save, Load clears the backup and everything is lost; an object whose settings were removed saves without an error into files nobody can open; a remove that fails half way lets another object take the backup away. Two failed saves: C45. (`Settings.Disk.c141_read_error_violated`, `Settings.Disk.c141_orphan_violated`, `Settings.Disk.c141_half_removed_violated`)
* **C142** Copies of stop tokens and sources refer to the same stop state. Proved for all programs: the meaning of every call as that of plain values, exact counts, life of the stop state, callbacks called once, no undefined behaviour under the stated care. Violated (same defect as C94): destroying or overwriting one of two tokens without a source makes the other one unusable. Calls do not overlap here (C56, C94). (`Stop.Handle.c142_copies_violated`, `Stop.Handle.c142_every_copy_violated`, `Stop.Handle.c142_assign_violated`)
* **C143** A program reads the files of earlier versions of its types. Proved with derived tables for the writer and any tables with all structures for the reader; a removed field must be readable as the first type of its name in the reader's tables. Violated without this: removing a vector of one structure while a vector of another one stays makes old files unreadable. (`Mp.c143_removed_violated`)
* **C144** The settings survive an update of the program and a crash. Proved for the changes of C143 and an unchanged header, and that a program with any other format does no harm while the last Save has completed. Violated otherwise: after a crash in Save, a Load by a program with an older version in the header clears the backup file, and all settings are lost. (`Upgrade.c144_downgrade_violated`)
* **C146** An exception leaves a vector_set as it was. The set is always what it was. Memory is lost, which is proved: if the constructor throws, the block that CreateNode has taken is not freed, and if the comparison in InsertNode throws, the new node belongs to nobody; at most one block for every exception. (`VectorSet.Heap.c146_block_lost_violated`, `VectorSet.Heap.c146_node_lost_violated`)
* **C147** An exception leaves a ring as it was. Programs in which reserve throws are proved to leave a ring that can be used and destroyed, with copied elements exactly as if the call had not been made. Proved to be false: a push whose constructor throws counts an element that does not exist, so that the destructor is undefined behaviour; a reserve or a copy constructor whose element throws loses the new buffer and the elements in it; a copy assignment loses the old elements, and if an element throws the target cannot be destroyed. (`Ring.c147_push_violated`, `Ring.c147_reserve_violated`, `Ring.c147_copy_constructor_violated`)
* **C148** A foreign_set agrees with its source also after an exception. Proved: while nothing throws, every foreign_set shows exactly the source; after exceptions it shows exactly the elements it was told about, and everything stays defined as long as no element is erased that it does not know; clear and a new foreign_set agree with the source again. Proved to be false in general: the removal of an element that a foreign_set does not know is undefined, or makes it forget another element. (`ForeignSet.Throw.c148_unknown_violated`)
* **C150** An exception leaves an interval_map as it was. For all histories with any faults: a call that throws has lost values at most as stated or is complete, no key has a wrong value, look-ups stay consistent, later calls do what they should. That the map is as before is violated: c150_strong_violated, an allocation that fails loses the whole interval of a. (`IntervalMap.c150_strong_violated`)
* **C151** A value of an interval_map can be assigned to other keys of it. Proved for the values whose node outlives the call; in exactly the other cases the call is undefined, c151_own_value_violated. (`IntervalMap.c151_own_value_violated`)
* **C154** Durations and hash values are printed so that the text says what they are. Everything but the last sentence is proved for every duration and hash value; printing a hash value leaves the stream decimal and filling with zeros (c154_stream_left_violated). (`Show.c154_stream_left_violated`)
* **C155** A collection written as the text of an attribute is read back from it, and a text that is no collection is refused. Proved for numbers of every width. Characters that are white space are lost, bytes among them (c155_characters_violated; c155_characters_partial says what is read). A word that is no number, or a number out of range, silently ends the collection (c155_garbage_violated, c155_range_violated), and a negative number given for an unsigned type is another number (c155_negative_violated). (`Testing.c155_characters_violated`, `Testing.c155_garbage_violated`, `Testing.c155_range_violated`, `Testing.c155_negative_violated`)
* **C159** A log is one line for every message, with its level and its text. Proved for compilers other than Clang, one thread, messages without line feeds and zeros; the log is then what the device takes of one text that can be read. With Clang a record is two lines (the time is printed with ctime, which ends with a line feed), so no line is a record (c159_clang_violated); read by two lines it is right (c159_clang_partial). A message with a line feed can forge records (c159_line_feed_violated), a zero cuts the message (c159_zero_violated), a full device (c159_full_violated) or a time that ctime cannot show (c159_clang_time_violated) loses messages and the calls return normally, a value that is no level leaves half a line (c159_half_line_violated), and two threads may write into each other's lines (c159_threads_violated). (`Log.c159_clang_violated`, `Log.c159_clang_time_violated`, `Log.c159_line_feed_violated`, `Log.c159_zero_violated`, `Log.c159_full_violated`, `Log.c159_half_line_violated`, `Log.c159_threads_violated`)
* **C161** A stream in a memory of a fixed size keeps what is written. Proved for programs that keep to the size and have their numbers at multiples of their length; then every call gives what a memory with a value at every place gives, and all three streams leave the same bytes. Too much data is written outside of the memory, by SwitchMemoryOutputStream even with assertions (c161_overrun_violated); a number after a single byte is a misaligned store (c161_misaligned_violated); after Reset more can be read than was written (c161_more_than_written_violated); a number in truncated data is read outside of the memory (c161_truncated_violated); the memory of a copied stream is deleted twice (c161_copy_violated). (`FixedMem.c161_overrun_violated`, `FixedMem.c161_misaligned_violated`, `FixedMem.c161_more_than_written_violated`, `FixedMem.c161_truncated_violated`, `FixedMem.c161_copy_violated`)
* **C162** A space hands out blocks that are arrays of their own. Proved for programs that ask for no more than there is and use their blocks until Reset; alignment if all lengths of objects are multiples of it. A number after a byte is not aligned (c162_misaligned_violated); too large a request moves the pointer out of the memory (c162_exhausted_violated); the length is calculated modulo 2^64, so that 2^61+1 objects of eight bytes get eight bytes (c162_overflow_violated); every space ends with delete of memory from new[] (c162_delete_violated); after Reset a new block is an old one (c162_reset_violated). (`FixedMem.c162_misaligned_violated`, `FixedMem.c162_exhausted_violated`, `FixedMem.c162_overflow_violated`, `FixedMem.c162_delete_violated`, `FixedMem.c162_reset_violated`)
* **C163** A Reader can be used for many objects and many streams. Proved: as new after ClearPrototypes, the objects one after another (for the versions of C36, which leaves out structures without fields that have got fields), the same program without tables. Without ClearPrototypes the tables of the next stream are accepted but the maps of the stream before are used, and the members are mixed up without an exception unless assertions are checked (c163_not_cleared_violated); Initialize after a stream with tables has no effect (c163_initialize_violated). (`Vts.c163_not_cleared_violated`, `Vts.c163_initialize_violated`)
* **C164** The names of a reflected structure are the names of its members. The names are right if and only if there is white space behind every comma and none before it (c164_names_partial); the rest is proved for these lists. A comma at the beginning of a line gives the name before it a blank at its end, so it is not found (c164_blank_violated), and reformatting the source makes a program lose the field in its own files (c164_reformatted_violated); without white space behind a comma a member has no name: undefined behaviour or a failed assertion (c164_no_table_violated). (`Text.c164_blank_violated`, `Text.c164_no_table_violated`, `Text.c164_reformatted_violated`)
* **C165** y_combinator makes a functor recursive. Proved for functors that do not write to their own members (c165_recursion_partial), and independence of the depth for all. Violated otherwise: every nested call uses a new copy of the functor, so a counter or a cache in a member is not shared (c165_state_violated). (`Combinator.c165_state_violated`)
* **C166** A loop over a range of integers sees the values from the beginning to the end. Proved for b <= e, all types. Violated for e < b: std::views::iota is undefined, not empty; so is a negative count and a count cast from a large size; a count that does not fit the type is cut. (`IntRange.c166_cut_violated`, `IntRange.c166_backwards_violated`, `IntRange.c166_negative_violated`, `IntRange.c166_large_violated`)
* **C167** The traits tell what a value stands for. object_address: all types but arrays. The traits: types without qualifiers; violated for qualified ones (A* const and const smart pointers are no pointers for is_pointer_v) and for arrays. (`Traits.c167_qualified_violated`, `Traits.c167_array_violated`)
* **C168** A ring forms only pointers into its buffer. Rings to which no more is pushed, at the end, than they have room for. Violated for every ring that wraps: m_data + pos is formed before the capacity is subtracted. (`Ring.c168_wrapped_violated`)
* **C169** An element of a vector_set may be changed through an iterator. Also: what goes wrong if position_changed is not asked. (`VectorSet.c169_unasked_violated`)
* **C170** Objects linked by shared pointers are written and read back. Structures without cycles that are no deeper than the stack allows: every path leads to the same. Violated: what was shared is read as separate objects (of n + 1 objects more than 2^n bytes are written), cycles overflow the stack, and so does data that is nested deeply. (`Graph.c170_sharing_violated`, `Graph.c170_cycle_violated`, `Graph.c170_size_violated`, `Graph.c170_deep_violated`)
* **C171** Observers of a set may change it when they are called. Changes when something was added, for every observer that is called no later than the first one that makes changes; nothing is undefined if only the last one does. Violated for the observers after one that erases what was added (dangling reference), for one that erases what is being removed (erased twice), and for insertions while the set is being cleared (lost, though told). (`ObservableSet.c171_added_violated`, `ObservableSet.c171_removing_violated`, `ObservableSet.c171_clearing_violated`)
* **C172** Mirrors can be moved, and follow the sets they are attached to. Proved for all programs in which no mirror is unsubscribed by hand. A mirror that is unsubscribed by hand keeps what it had: attached again, it has more than its set, or throws. (`ObservableSet.c172_unsubscribed_violated`, `ObservableSet.c172_every_unsubscribed_violated`)
* **C173** A vector_set keeps the order it was given, wherever it is copied and moved. Proved for all comparators that moving leaves usable, and for all comparators in programs that only clear, assign and destroy sets that were moved from. Violated for comparators like std::function: the second insertion into a set that was moved from throws. Assigning a set to itself is the subject of C11. (`VectorSet.Comp.c173_moved_from_violated`, `VectorSet.Comp.c173_every_moved_from_violated`)
* **C174** Foreign sets may be moved and follow the sets they are constructed from. Proved for programs that do not unsubscribe a foreign_set by hand and subscribe one by hand only to an empty set and with getters in place. Violated otherwise: unsubscribed by hand it keeps pointers to elements that may be gone, subscribed by hand to a set with elements it lacks them and removing one is undefined, and after a move that takes the getters away the first insertion throws. (`ForeignSet.c174_unsubscribed_violated`, `ForeignSet.c174_subscribed_late_violated`, `ForeignSet.c174_getters_lost_violated`, `ForeignSet.c174_every_unsubscribed_violated`, `ForeignSet.c174_every_late_violated`)
* **C176** An update queue leaves no message and no function behind. The code violates the full statement: if the assignment in Push throws, its block is in no list and is never deleted (c176_copy_violated); if an update calls ApplyUpdates, the messages being applied drop out of their list and are never deleted (c176_nested_violated, release builds; a debug build fails an assertion). Proved for all other histories. (`QueueMem.c176_copy_violated`, `QueueMem.c176_every_copy_violated`, `QueueMem.c176_nested_violated`)
* **C177** Functions on tuples visit every element once and in order. The code violates the full statement: transform_tuple passes the calls as arguments of make_tuple, whose order is unspecified; a function that counts its calls gives different tuples with different compilers (c177_order_violated). Proved for functions whose result depends on the element only; for_each, for_each_index, tuple_to_array and map_types are proved in full. (`Tuples.c177_order_violated`, `Tuples.c177_every_order_violated`)
* **C179** Decimals over Boost integers behave like those over built-in integers. Violated by types whose sizeof is not the number of their bytes: the number of bits of the mantissa is computed from sizeof, so texts of larger numbers are refused and numeric_limits bounds nothing; violated by products that do not fit: they are wrong without an exception. Conversion through double is not modelled. (`MpDec.c179_product_violated`, `MpDec.c179_wide_violated`, `MpDec.c179_limits_violated`)
* **C180** Storages can be moved, and their files move with them. Violated by assignment of a storage to itself: it closes the files, as Close does. Files are read and written at once here, their operations are those of C43-C45 and C98. (`StorageMove.c180_self_violated`)
* **C181** Types that have got other names are read if the program says so. Violated for containers of a renamed type: a map with QString does not help with std::vector<QString>, whose name sequence<QString> has to be listed as well; the partial theorems ask for every name that has changed. (`TypeMap.c181_inside_violated`)
* **C182** Exceptions of reading say what is wrong with the data. Violated for a field whose type has changed to another type of the program: MapPrototypes throws an IoError with a fixed text before the check in ReadV that would name the field and its types can fail, and a storage logs a general I/O exception. The number of the expected type in the text about an unknown type is always size_t(-1). (`IoMsg.c182_changed_violated`, `IoMsg.c182_never_thrown_violated`)
* **C183** Decimals and floats. Proved: the relative error, for all mantissas; the order, for decimals with the same number of digits; everything for mantissas that a float holds (up to 2^24), the round trip for mantissas below 2^22. Violated for greater mantissas, because the mantissa is rounded to a float before the division: 167772.17 becomes 167772.15625 and comes back as 167772.16, though 167772.171875 is a float, and 167772.19 becomes greater than 167772.195. (`Single.c183_nearest_violated`, `Single.c183_round_trip_violated`, `Single.c183_order_violated`)
* **C184** An object in a Destructible is destroyed by Destroy and by nothing else. Proved for programs that do not copy variables. Violated for copies: the implicit copy constructor (for constants) and assignment copy the bytes without running a constructor, so that using or destroying the copy is undefined, and for a trivially copyable type one object is destroyed twice. (`Destructible.c184_copy_violated`)
* **C185** Damage to a file of settings is noticed. Proved for files that are cut off, for changes unless a changed block is a payload followed by its own hash, and outright for CRC-64 and short changes. Violated by blocks that are exchanged: a hash does not cover the place of its block, so for every hash a file with two full blocks exchanged is loaded as another value and Load returns true; likewise a mixture of the blocks of two saves. (`StorageFmt.c185_exchanged_violated`, `StorageFmt.c185_mixed_violated`)
* **C186** A file of settings that cannot be read does not stand in the way of the other. Proved if the backup holds a value; for a good master if reading the backup throws IoExceptions only, which is proved for all bytes for types without vectors and variants and with limited strings of bytes, and for hashed files of every type. Violated by vectors, and by wide strings even with a limit: the length read first makes resize throw std::length_error or std::bad_alloc, Load does not catch it and does not clear the backup, so that the settings cannot be loaded any more though the master is good. (`StorageFmt.c186_stuck_violated`, `StorageFmt.c186_limit_violated`)
* **C187** One stop request ends the sleep of all threads. Violated by a thread that is, at the moment of the request, between its test of the flag and the beginning of its wait: it sleeps for its whole duration although the request has returned true and has woken the others. Proved for all other threads by simulation: each of the calls makes the steps of the single one of C57. (`Sleep.Many.c187_lost_violated`)
* **C188** The text of an optional value tells whether there is a value. Violated: the string empty and no string have the same text, and so have, for every type, an empty optional and an optional that contains an empty one. Proved for strings other than that word and for 128 bit numbers (C129) without a width. (`Convert.c188_word_violated`, `Convert.c188_nested_violated`)
* **C189** The message about a wrong enumerator tells what was wrong. Violated: the underlying type is uint8_t, so narrow streams show the character with this code and never the number, and 53 is shown as 5; the message about a text has no blank behind the name of the enumeration. Proved: what is refused, different messages for different inputs (texts without zeros), and the number in wide programs for enumerators that are read or written. (`Text.EnumMsg.c189_number_violated`, `Text.EnumMsg.c189_other_number_violated`, `Text.EnumMsg.c189_blank_violated`)
