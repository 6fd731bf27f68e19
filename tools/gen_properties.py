#!/usr/bin/env python3
"""Writes /verif/properties.jsonl from the table below (one JSON object per line)."""
import json, os
P = []
def p(id, title, statement, quantifier, why, *anchors):
    P.append(dict(id=id, title=title, statement=statement, quantifier=quantifier,
                  why_tests_cant=why, anchors=list(anchors)))

# ---------------------------------------------------------------- ring
p("C01", "A ring behaves as a bounded deque",
  "Starting from a ring constructed with a positive capacity, after any sequence of push_back, push_front, pop_back, pop_front, clear and reserve calls (pops only when not empty, reserve with a positive argument) the ring shows exactly the sequence a bounded double-ended queue would hold: a push at one end of a full ring discards the element at the other end, and front, back, size, empty, full and element i agree with that sequence. No call touches memory outside the buffer or an unconstructed slot.",
  "every capacity, element type, finite history of operations and index below the size",
  "The head position and the element count wrap around the capacity independently; tests exercise a few capacities and histories, not every wrap-around combination.",
  "Awl/Ring.h: ring::push_back, push_front, pop_back, pop_front, clear, reserve, front, back, operator[], size, empty, full")
p("C02", "Reserve keeps the newest elements in order",
  "reserve(n) leaves a ring with capacity n whose contents are the last min(n, size) elements of the old contents in the same order.",
  "every ring state reachable through the API and every n > 0",
  "Depends on where the data wraps in the old buffer and on n relative to the size; there are unboundedly many combinations.",
  "Awl/Ring.h: ring::reserve, copy")
p("C03", "Ring at() rejects exactly the bad indexes",
  "at(i) returns element i for every i < size() and throws std::out_of_range for every i >= size().",
  "every ring state and index",
  "Needs every size and index; the boundary case i = size() is the one that matters.",
  "Awl/Ring.h: ring::at, check_index")
p("C04", "Ring copies are faithful and equality is sequence equality",
  "A copy constructed or copy assigned ring holds the same sequence as the source (and the source is unchanged), two rings compare equal exactly when their sequences are equal regardless of capacity and of where the data is placed in the buffer, and iterating from begin() to end() visits the sequence in order, rbegin() to rend() in reverse.",
  "every pair of ring states",
  "The physical layouts (head offset, capacity) of equal rings differ in unboundedly many ways.",
  "Awl/Ring.h: ring copy constructor, copy assignment, operator==, iterator")
# ---------------------------------------------------------------- vector_set
p("C05", "vector_set is a sorted set",
  "After any history of insert, emplace, erase and clear the set contains exactly the keys that a mathematical set would contain; insert reports whether the key was new and points to the stored element; erase reports whether the key was present; find, contains, lower_bound and upper_bound agree with that set; size() is its cardinality.",
  "every strict weak order, every history of operations and every key",
  "Each history gives a different tree shape; rotations and removal of a node with two children have many cases that depend on the whole history.",
  "Awl/VectorSet.h: vector_set::insert, emplace, erase, clear, find, contains, lower_bound, upper_bound, size")
p("C06", "vector_set indexes are ranks",
  "After any history, s[i] and s.at(i) are the i-th smallest element for i < size(), at(i) throws for i >= size(), index_of(find(k)) and index_of(k) equal the number of elements smaller than k when k is present, find2 returns the element together with that index, and index_of(k) throws when k is absent.",
  "every history, index and key",
  "The per-node descendant counters must be right after every rotation and removal of every history.",
  "Awl/VectorSet.h: operator[], at, index_of, find2, find_by_index, FindNodeByIndex, IndexOfNode, FindIndexByKey, UpdateCount")
p("C07", "Iterating a vector_set visits the elements in order",
  "After any history, iterating forward visits the elements in strictly increasing order, each exactly once; iterating backward gives the reverse; incrementing the iterator of element i gives element i+1.",
  "every history of operations",
  "The list links and the tree are two structures updated separately; their agreement depends on every history.",
  "Awl/VectorSet.h: begin, end, rbegin, rend, InsertNode, RemoveNode, GetSuccessor, GetPredecessor; Awl/QuickList.h")
p("C08", "vector_set insertion keeps the tree balanced",
  "For a set built by insertions only, the search path to any element has length at most 2*log2(n+1), so find, insert and index look-ups take O(log n) steps.",
  "every sequence of insertions in any order",
  "A complexity bound over all insertion orders.",
  "Awl/VectorSet.h: BalanceAfterInsert, RotateLeft, RotateRight; README.md item 3")
p("C09", "vector_set look-up stays logarithmic after removals",
  "After any history of insertions and removals, the search path to any element has length at most 2*log2(n+1) where n is the current size.",
  "every history of insertions and removals",
  "A complexity bound over all histories; random tests do not find adversarial removal patterns.",
  "Awl/VectorSet.h: RemoveNode, BalanceAfterRemove; README.md item 3")
p("C10", "vector_set never follows a null link",
  "No insert, erase or look-up on any set reachable through the public API dereferences a null parent, sibling or child pointer in the rebalancing code.",
  "every history of operations",
  "The rebalancing code relies on siblings and grandparents existing; whether they exist depends on the whole history.",
  "Awl/VectorSet.h: BalanceAfterInsert, BalanceAfterRemove, RotateLeft, RotateRight, RemoveNode")
p("C11", "Assigning a container keeps the value",
  "After a = b (vector_set or ring) the container a equals the value b had before the assignment, and for copy assignment b is unchanged; this includes the case where a and b are the same object.",
  "every pair of container states, including aliasing",
  "Aliasing and every state.",
  "Awl/VectorSet.h: vector_set::operator=; Awl/Ring.h: ring::operator=")
# ---------------------------------------------------------------- lists
p("C12", "quick_list is a sequence in both directions",
  "After any history of push_front, push_back, pop_front, pop_back, insert, erase, clear and splice calls on a family of lists, each list's forward traversal yields the sequence a mathematical list would hold, the backward traversal yields its reverse, and no list is disturbed by operations on other lists.",
  "every finite family of lists, every history of operations on elements that are not in a list when inserted",
  "Link surgery correctness is a statement about all heaps, not about sample lists.",
  "Awl/QuickList.h, Awl/QuickLink.h, Awl/SingleList.h, Awl/SingleLink.h")
p("C13", "Removing an element needs no reference to its list",
  "exclude on an element that is in some list removes exactly that element from exactly that list, leaves it marked as not included, and changes no other list; safe_exclude does the same and is a no-op on an element in no list, so calling it twice equals calling it once.",
  "every heap of lists and every element",
  "Quantifies over all heaps of lists.",
  "Awl/QuickLink.h: exclude, safe_exclude, included; Awl/QuickList.h")
p("C14", "Moving a linked element keeps its place",
  "Move-constructing or move-assigning a movable link puts the new object at the position of the old one in the same list, removes the target from the list it was in before, and leaves the source in no list.",
  "every list, position and pair of elements",
  "Quantifies over all heaps; aliasing of source, target and neighbours matters.",
  "Awl/QuickLink.h: TypedQuickLink / MovableLink move constructor and move assignment; Awl/Observable.h: Observer")
p("C15", "Splice moves whole lists in order",
  "push_back(list&&)/push_front(list&&)/splice moves all elements of the source list to the destination keeping their order, leaves the source empty, and concatenates in the documented position; attach on an empty list equals move.",
  "every pair of different lists",
  "Quantifies over all heaps, including empty source and destination.",
  "Awl/QuickList.h: push_front, push_back, splice, attach")
# ---------------------------------------------------------------- observable
p("C16", "Every observer is notified once, in subscription order",
  "When Notify is called and the callbacks only unsubscribe the observer being called (or destroy it), every observer subscribed at the start is called exactly once, in subscription order, and no call is made to an observer that is not subscribed.",
  "every subscription list and every behaviour of callbacks that only touches the called observer's own subscription",
  "Quantifies over all callback behaviours and all subscription lists.",
  "Awl/Observable.h: Observable::Notify, NotifyWhileTrue, Subscribe, Unsubscribe")
p("C17", "Notify is safe whatever the callbacks do",
  "Notify never follows a link of an observer that is no longer subscribed, whatever observers are subscribed, unsubscribed or destroyed from inside the callbacks.",
  "every callback behaviour",
  "Quantifies over all callback behaviours (re-entrancy).",
  "Awl/Observable.h: Observable::Notify, NotifyWhileTrue")
p("C18", "Destroying either side ends the subscription",
  "After an observable or an observer is destroyed no remaining object links to it: the remaining observers report that they are not subscribed, and the remaining observables do not call the destroyed observer.",
  "every history of subscribe, unsubscribe, move and destroy operations",
  "Lifetime histories are unbounded.",
  "Awl/Observable.h: ~Observable, ~Observer, ClearObservers; Awl/QuickLink.h")
p("C19", "An observable_set's notifications describe its contents",
  "Replaying the notifications of an observable_set (added, removing, clearing) on a set that starts equal to it reproduces its contents after every operation; a notification is sent exactly when the contents change.",
  "every history of insert, emplace, erase, clear on the set",
  "Quantifies over all histories.",
  "Awl/ObservableSet.h: insert, emplace, erase, clear")
p("C20", "A mirror_set stays equal to its source",
  "A mirror_set attached to a source (an observable_set or another mirror_set) contains exactly the elements of the source, in its own order, after any history of operations on the source; no handler throws as long as the mirror's comparator distinguishes the elements that the source's comparator distinguishes; its own subscribers are sent events that lead to the same contents, so chains of mirrors stay equal too.",
  "every history of operations on the source (including moves and migration), every chain of mirrors",
  "Quantifies over all histories and all pairs of orders.",
  "Awl/MirrorSet.h: reflect, OnAdded, OnRemoving, OnClearing; Awl/ObservableSet.h")
p("C21", "A foreign_set groups by foreign key",
  "After any history of operations on the source set, the foreign set has a group for a foreign key exactly when some source element has that key, and the group contains exactly those elements.",
  "every history of operations on the source set",
  "Quantifies over all histories.",
  "Awl/ForeignSet.h; Awl/ObservableSet.h")
# ---------------------------------------------------------------- update queue
p("C22", "Every pushed update is applied exactly once, in order",
  "With any number of producer threads pushing and one consumer applying, every pushed update is applied exactly once by a later ApplyUpdates (if no update throws and pending updates are not cleared), and updates are applied in the order in which the pushes happened; in particular each producer's updates are applied in program order.",
  "every number of threads and every interleaving of pushes, swaps and applications",
  "Quantifies over all schedules.",
  "Awl/UpdateQueue.h: Push, ApplyUpdates")
p("C23", "Updates pushed while applying wait for the next batch",
  "An update pushed (by any thread, including from inside an update) while a batch is being applied is not executed in that batch and is executed in a later one; a batch always terminates when its own updates terminate.",
  "every interleaving, every update behaviour",
  "Quantifies over all schedules and update behaviours.",
  "Awl/UpdateQueue.h: Push, ApplyUpdates")
p("C24", "A failing update leaves the queue usable",
  "If an update throws out of ApplyUpdates, the exception reaches the caller, no update that was already applied is applied again, the rest of that batch is discarded (as documented), and every update pushed during or after the failing batch is applied exactly once by later ApplyUpdates calls, in order.",
  "every batch, every failing position, every interleaving of pushes",
  "Quantifies over all batches, failure points and schedules.",
  "Awl/UpdateQueue.h: ApplyUpdates, FreeData")
# ---------------------------------------------------------------- decimal
p("C25", "Decimal addition and subtraction are exact or throw",
  "x + y and x - y either throw or return a decimal whose numeric value is exactly the sum or difference of the numeric values.",
  "every pair of representable decimals of every mantissa width and exponent width",
  "2^128 pairs per type; the wrap-around happens only at large mantissas.",
  "Awl/Decimal.h: operator+, operator-, align, set_mantissa, extend_self")
p("C26", "Decimal comparison is the numeric order",
  "x < y, x == y and x > y hold exactly when the numeric values compare so; exactly one of the three holds; comparison never throws.",
  "every pair of decimals",
  "2^128 pairs; the interesting ones have different exponents and no common scale, or a negative zero.",
  "Awl/Decimal.h: compare, compare_positive, operator<, operator==")
p("C27", "Decimal text round trip",
  "Printing a decimal and parsing the text gives back a decimal with the same numeric value and sign, for every decimal; the printed text is the plain decimal notation of the value, with exactly as many digits after the point as the decimal has.",
  "every decimal of every width",
  "2^64 values per type.",
  "Awl/Decimal.h: operator<<, from_string, parse_int, normalize")
p("C28", "Parsing accepts exactly decimal literals with the right value",
  "from_string(t) either throws or returns the decimal whose numeric value is the value denoted by t, an optional sign, at least one digit and at most one point among the digits; it throws on every other text.",
  "every string",
  "Quantifies over all strings.",
  "Awl/Decimal.h: from_string, parse_int, symbol_to_digit")
p("C29", "Changing the number of digits is exact or truncates by less than one unit",
  "extend and normalize do not change the numeric value (extend throws if impossible); truncate(n) and rescale give the value with n digits that is nearest toward zero; floor(n) is the greatest and ceil(n) the least value with n digits that is not above / not below the value.",
  "every decimal and every digit count",
  "2^64 values per type times all digit counts; negative values and non-multiples matter.",
  "Awl/Decimal.h: rescale, extend, truncate, normalize, floor, ceil")
p("C30", "Decimal binary representation round trip",
  "Packing sign, digit count and mantissa into the bit representation and unpacking returns the same three fields for all in-range fields, and distinct field triples have distinct representations.",
  "every triple of in-range fields and every width",
  "All 2^64 representations.",
  "Awl/DecimalData.h; Awl/Decimal.h: to_bits, from_bits; Awl/Mp/MultiprecisionDecimalData.h")
# ---------------------------------------------------------------- serialization
p("C31", "What is written can be read back",
  "For every serialisable type (numbers, bool, enums, strings, arrays, vectors, packed bool vectors, maps, sets, optionals, variants, nested reflected structures) reading the bytes produced by writing a value into a fresh object gives the same value and consumes exactly those bytes, whatever follows.",
  "every type built from the supported constructors, every value, every continuation of the stream",
  "Quantifies over all types and values.",
  "Awl/Io/Rw/*.h: Read, Write")
p("C32", "A truncated value is always reported",
  "Reading any proper prefix of the bytes of a value throws an end-of-file exception; it never returns a value.",
  "every type, value and cut position",
  "Quantifies over all types, values and positions.",
  "Awl/Io/Rw/*.h; Awl/Io/VectorStream.h; Awl/Io/ReadRaw")
p("C33", "Reading replaces the previous value",
  "Reading into an object gives the written value whatever the object held before.",
  "every type, written value and previous value",
  "Quantifies over pairs of values.",
  "Awl/Io/Rw/OptionalReadWrite.h, PointerReadWrite.h, CollectionReadWrite.h, StringReadWrite.h, VectorReadWrite.h, VariantReadWrite.h")
p("C34", "Big-endian integer conversion round trip",
  "to_array followed by from_array returns the same integer, from_array followed by to_array returns the same bytes, and the byte order is most significant first, for every integer width.",
  "every width and every value",
  "2^64 values.",
  "Awl/Int2Array.h: to_array, from_array")
# ---------------------------------------------------------------- VTS
p("C35", "Version tolerant round trip between equal versions",
  "Reading a version tolerant stream with the same type definitions gives the written value.",
  "every set of structure types and every value",
  "Quantifies over all type definitions.",
  "Awl/Io/Reader.h, Awl/Io/Writer.h, Awl/Io/Vts.h")
p("C36", "Version tolerant reading maps fields by name",
  "When fields were added, removed, reordered or renamed (with the renaming registered) between the writing and the reading version, every field that exists in both versions gets the written value, every added field keeps the value it had before reading, removed fields are skipped, and reading consumes exactly the written bytes.",
  "every pair of versions of every structure, nested to any depth, and every value",
  "Quantifies over pairs of type definitions and values.",
  "Awl/Io/Reader.h: ReadV, SkipField, SkipStruct, FindProtoMap, MapPrototypes; Awl/Io/FieldMap.h")
p("C37", "Incompatible field types are reported",
  "If a field with the same name has a different type in the two versions, reading throws a type mismatch exception the first time and every later time the structure is read; it never stores a value of the wrong type.",
  "every pair of versions and any number of reads",
  "Quantifies over pairs of type definitions and histories of reads (a failed read must not change the result of the next one).",
  "Awl/Io/Reader.h: FindProtoMap, MapPrototypes, CheckTypesCompatible")
# ---------------------------------------------------------------- streams
p("C38", "A hashed stream is transparent",
  "Bytes written to a hashing output stream in any pieces and then read through a hashing input stream with the same hash and block size in any pieces give the same bytes and then the end of the stream, with no corruption reported.",
  "every byte sequence, block size larger than the hash, hash function and division into writes and reads",
  "Quantifies over all chunkings, block sizes and contents.",
  "Awl/Io/HashStream.h: HashOutputStream, HashInputStream")
p("C39", "A truncated hashed stream never yields wrong data",
  "Cutting a hashed stream at any byte and reading it yields a prefix of the original data followed by either the end of the stream or a corruption exception, for any hash whatsoever; if anything was cut off, a proper prefix.",
  "every content, block size, hash function and cut position",
  "Quantifies over all contents and cut positions.",
  "Awl/Io/HashStream.h: HashInputStream")
p("C40", "A modified block is reported unless the hashes collide",
  "If the bytes of a hashed stream are changed in place, then reading returns the original data, or throws a corruption exception, or some changed block has a payload/hash pair that is itself consistent; with CRC-64, any change confined to at most 8 consecutive bytes of a block's payload or to its stored hash is always reported.",
  "every content and every change of bounded extent",
  "Quantifies over all contents and all error patterns.",
  "Awl/Io/HashStream.h: HashInputStream::PeekBuf; Awl/Crypto/Crc64.h: Calc")
p("C41", "CRC-64 table and algorithm implement the polynomial division",
  "The table driven CRC-64 equals the bit by bit reflected CRC with the Jones polynomial for every seed and every byte sequence; processing a concatenation equals continuing from the intermediate value.",
  "every seed and byte sequence",
  "Quantifies over all messages and seeds; a single wrong table entry escapes most tests.",
  "Awl/Crypto/Crc64.h: Crc64::operator(), Calc, crc64_tab")
p("C42", "Buffered and memory streams are transparent",
  "Reading through a buffered input stream in any pieces returns exactly the bytes of the underlying stream in order and ends exactly when it ends; a vector stream is a FIFO of bytes.",
  "every content, buffer size and division into reads and writes",
  "Quantifies over all chunkings.",
  "Awl/Io/BufferedStream.h, Awl/Io/VectorStream.h")
# ---------------------------------------------------------------- storage
p("C43", "Saving is atomic under crashes",
  "If the process or machine stops at any point of Save on a storage whose last Save or Load completed, a later Load succeeds and gives either the value saved before or the value being saved.",
  "every pair of values, every serialisation format whose proper prefixes do not parse, every crash point including inside a write",
  "Quantifies over all crash points and values.",
  "Awl/Io/AtomicStorage.h, Awl/Io/AtomicStorage.cpp: Save, Load")
p("C44", "Recovery is idempotent",
  "If Load itself is interrupted at any point, any number of times, the Load that finally completes gives the same value that an uninterrupted Load would have given.",
  "every storage state left by an interrupted Save, every number of interruptions and every crash point",
  "Quantifies over all sequences of crash points.",
  "Awl/Io/AtomicStorage.cpp: Load")
p("C45", "A storage survives any sequence of failed saves",
  "After any sequence of Saves of which some were interrupted or failed with an I/O error, without Load in between, Load gives one of the values passed to Save since (and including) the last completed one.",
  "every sequence of saves with crash points",
  "Quantifies over all multi-failure histories.",
  "Awl/Io/AtomicStorage.cpp: Save, Load; Awl/Io/OptionalStorage.cpp: Save")
# ---------------------------------------------------------------- utilities
p("C46", "A scope guard runs its action exactly once",
  "For every way of using a scope guard, release, moving it to another guard and destroying both, the final action runs exactly once if the guard was not released and zero times if it was.",
  "every history of release, move construction, move assignment and destruction",
  "Quantifies over all histories.",
  "Awl/ScopeGuard.h")
p("C47", "Composite comparators are strict weak orders",
  "A composite comparator built from strict weak orders is itself a strict weak order, and it is the lexicographic order of its components; reverse comparators and key comparators of strict weak orders are strict weak orders, and reversing twice gives the original order.",
  "every list of comparators and every triple of values",
  "Order laws quantify over all triples of values.",
  "Awl/CompositeCompare.h, Awl/TransparentCompositeCompare.h, Awl/ReverseCompare.h, Awl/KeyCompare.h")
p("C48", "Heterogeneous look-up agrees with the element order",
  "For a transparent comparator (by key, reversed, or composite), comparing an element with a key is consistent with the element order: in any sorted sequence the elements that compare less than a key come first, then the elements equivalent to it, as a contiguous range, then those that compare greater; an element is equivalent to the key extracted from it.",
  "every sorted sequence and every key",
  "Quantifies over all sequences and keys.",
  "Awl/TransparentCompositeCompare.h, Awl/KeyCompare.h")
p("C49", "position_changed detects exactly a broken order",
  "If a sequence was strictly sorted and one element was modified, position_changed for that element returns false exactly when the sequence is still strictly sorted.",
  "every sequence, position and new value",
  "Quantifies over all sequences.",
  "Awl/RangeUtil.h: position_changed")
p("C50", "Enum text round trip",
  "For an enumeration whose element names are distinct identifiers, converting an element to text and back gives the element, converting any other text fails, and the list of names parsed from the macro text is exactly the list of names in order.",
  "every enumeration (list of names) and every text",
  "Quantifies over all enumerations.",
  "Awl/EnumTraits.h, Awl/Reflection.h: MemberList")
p("C51", "An interval map is a function from keys to values",
  "After any history of assign([a, b], v) the map contains a key exactly when the key was in some assigned interval, and at(key) is the value of the most recent interval that covers the key.",
  "every history of assignments with a <= b and every key",
  "Intervals overlap, nest, touch and coincide in unboundedly many ways.",
  "Tests/Experimental/IntervalMap.h: interval_map::assign, at, contains")
p("C52", "A bitmap is a set of enum elements",
  "After any sequence of set, reset, and bitwise operations the bitmap holds exactly the elements a mathematical set would hold, and operations on one element do not affect the others.",
  "every enumeration size, history and element",
  "Quantifies over all sizes (more than 64 elements) and histories.",
  "Awl/BitMap.h")
p("C53", "A pool never hands out an object that is in use",
  "An object obtained from a pool is not handed out again while a shared pointer to it exists, it is returned to the pool when the last pointer goes away, and destroying the pool while objects are in use does not free them prematurely nor leak them.",
  "every history of make, share, drop and pool destruction",
  "Quantifies over all histories.",
  "Awl/ObjectPool.h, Awl/PooledObject.h")
p("C54", "An aggregator calls its handler exactly once",
  "The handler of an aggregator is called exactly once, with the values set, when the last missing value is set, and never after cancellation.",
  "every order of set calls, repeated set calls and cancellation points",
  "Quantifies over all orders and repetitions.",
  "Awl/Aggregator.h")
p("C55", "Timers resume in deadline order",
  "The time queue resumes the coroutines whose time has come in the order of their deadlines, and a coroutine is not delayed by one with a later deadline.",
  "every set of deadlines and every order of scheduling",
  "Quantifies over all sets of deadlines.",
  "Awl/Testing/TimeQueue.h")
p("C56", "Stop is requested exactly once and callbacks run once",
  "For any number of threads requesting stop on a shared stop state, exactly one request returns true; every callback registered before that runs exactly once and every callback registered later runs immediately; after a callback object is destroyed its function is not running on another thread and will not run.",
  "every number of threads and every interleaving",
  "Quantifies over all schedules.",
  "Extras/JThread/JThreadExtras/stop_token.hpp")
p("C57", "A cancellable sleep wakes up when stop is requested",
  "sleep_for(d, token) returns no later than the stop request made during the sleep, not after the whole duration.",
  "every interleaving of the sleeping and the stopping thread",
  "Quantifies over all schedules; the losing window is a few instructions wide.",
  "Awl/Sleep.h: sleep_for")
p("C58", "A task delivers its result to the awaiter exactly once",
  "The coroutine awaiting a task resumes exactly once after the task finishes and gets its value or its exception; each coroutine frame is destroyed exactly once and never used after destruction, including when the task is released.",
  "every nesting depth, every order of resume, release, destruction and completion",
  "Quantifies over all histories.",
  "Awl/Coro/UpdateTask.h, Awl/Coro/ProcessTask.h")
p("C59", "The command line parser accepts exactly option lists",
  "Arguments of the form '--name [value]' in any number and order are parsed to the map from name to value; repeated names and values without a name are rejected.",
  "every argument list",
  "Quantifies over all argument lists.",
  "Awl/Testing/CommandLineProvider.cpp")
p("C60", "The test runner's exit code tells whether the tests passed",
  "The process exit code is zero exactly when all selected tests passed.",
  "every set of tests, filter and outcome of each test",
  "A property of the runner itself; the runner's own tests cannot observe the exit code.",
  "Awl/Testing/TestConsole.cpp: Run, RunTests; Main/main.cpp")
p("C61", "A ring can be pushed a copy of its own element",
  "r.push_back(r[i]) and r.push_front(r[i]) have the same effect as pushing a copy of r[i] made before the call, as for the standard containers.",
  "every ring state and index",
  "The bad case needs a full ring and the element that is about to be overwritten.",
  "Awl/Ring.h: push_back(const value_type&), push_front(const value_type&), allocate_next, allocate_prev")
p("C62", "A moved-from ring is empty and reusable",
  "After moving from a ring, the target shows the contents of the source and the source can be used like an empty container: size() is 0, iterating it visits nothing, it can be destroyed, given capacity with reserve, or assigned to.",
  "every ring state",
  "Every state of the source.",
  "Awl/Ring.h: move constructor, move assignment, attach, release")
p("C63", "vector_set iterators stay valid",
  "An iterator to an element of a vector_set keeps pointing to the same element with the same value through every insertion and through every removal of another element; erase(it) removes exactly the element it points to and no other.",
  "every reachable set, every key and every iterator",
  "Removing a node with two children moves another node into its place; whether that node keeps its identity depends on the tree shape.",
  "Awl/VectorSet.h: RemoveNode, Node::CopyFrom, insert, erase")
p("C64", "vector_set bounds with a heterogeneous key",
  "With a key of another type that the comparator accepts, lower_bound(k) is the first element not less than k and upper_bound(k) the first element greater than k, also when several elements are equivalent to k.",
  "every reachable set and every key compatible with the order",
  "Which of several equivalent elements the search meets first depends on the tree shape.",
  "Awl/VectorSet.h: FindBoundByKey, lower_bound, upper_bound; Awl/TransparentCompositeCompare.h")
p("C65", "Comparing vector_sets",
  "a == b holds exactly when both sets have the same number of elements and elements at equal positions are equivalent, and never reads past the end of either set.",
  "every pair of reachable sets",
  "Every pair of histories.",
  "Awl/VectorSet.h: operator==, operator!=")
p("C66", "Elements of a cleared list are in no list",
  "After clear() the elements the list held report that they are in no list, and excluding or destroying them disturbs no list.",
  "every list, every element that was in it when clear() was called, every later history",
  "The damage depends on what the list is used for after clear(); a test would have to guess the history.",
  "Awl/QuickList.h: clear; Awl/QuickLink.h: included, exclude, safe_exclude")
p("C67", "Splicing a list into itself changes nothing",
  "push_back(list&) and push_front(list&) with the list itself as the source leave the list as it was.",
  "every list",
  "Aliasing of source and destination for every list length.",
  "Awl/QuickList.h: push_front, push_back")
p("C68", "Moving an observable to itself changes nothing",
  "Move-assigning an observable to itself keeps its observers subscribed.",
  "every observable and every list of subscribed observers",
  "Aliasing of source and target for every subscription history.",
  "Awl/Observable.h: Observable::operator=, ClearObservers")
p("C69", "A ring destroys each element exactly once",
  "Every element placed into a ring is destroyed exactly once: when it is overwritten, popped, cleared, dropped by reserve, or when the ring is destroyed or assigned to; the buffer is never released with a live element in it.",
  "every capacity > 0 and every history of calls followed by destruction or assignment",
  "Quantifies over all histories; leaks and double destruction are invisible to tests of values.",
  "Awl/Ring.h: pop_front, pop_back, allocate_next, allocate_prev, reserve, clear, free")
p("C70", "Subscribers of observable_sets never lose track",
  "Whatever a program does with a family of observable_sets (create, insert, erase, clear, subscribe, unsubscribe, move-construct, move-assign, migrate, destroy), a subscriber that starts with what the set showed when it subscribed and applies the events it is sent always finds them meaningful and arrives at the contents of the set it is subscribed to now; events are sent only when contents change.",
  "every history over every family of sets and observers",
  "Quantifies over all histories of several interacting objects, including self-moves.",
  "Awl/ObservableSet.h: operator=, migrate, ~observable_set, insert, erase, clear")
p("C71", "The update queue owns every message block it allocates",
  "Whatever the threads do, including updates whose copy constructors throw, every message block the queue has allocated is in exactly one of the lists whose destructors delete their elements, so destroying the idle queue frees all of them exactly once.",
  "every interleaving, every number of threads, every throwing copy",
  "Leaks and double deletions depend on the schedule and on throwing copies; tests use closures that do not throw.",
  "Awl/UpdateQueue.h: Push, ClearPending, FreeData, ~MessageQueue")
p("C72", "The update queue releases the functions of updates that are applied or dropped",
  "When no thread is inside the queue, the only functions (with their captured objects) it keeps alive are those of updates that still wait to be applied.",
  "every interleaving, every number of threads, every failing update, every use of ClearPending",
  "Quantifies over all histories; the lifetime of captures is not asserted by tests.",
  "Awl/UpdateQueue.h: FreeData, ClearPending, Push")
p("C73", "Decimal multiplication is exact or throws",
  "multiply(x, y) throws or returns a decimal whose value is exactly the product (the comment on it says it throws if an overflow occurs).",
  "every pair of decimals of every type",
  "2^128 pairs; tests multiply small numbers.",
  "Awl/Decimal.h: multiply, set_mantissa")
p("C74", "Seconds to nanoseconds",
  "decimal_to_nanoseconds(d) is exactly the number of nanoseconds in d seconds, or throws.",
  "every decimal of every type",
  "2^64 values per type and digit counts beyond nine.",
  "Awl/DecimalTime.h: decimal_to_nanoseconds; Awl/Decimal.h: extend")
p("C75", "numeric_limits bound every decimal",
  "numeric_limits<decimal>::max() and min() are decimals of the type, and every decimal lies between them, numerically and for operator <=.",
  "every decimal of every type",
  "All 2^64 values and all digit counts.",
  "Awl/Decimal.h: numeric_limits, compare")
p("C76", "Unary minus",
  "-x has exactly the negated value and the same digit count, -(-x) is x, and x - x is a (positive) zero.",
  "every decimal of every type",
  "All 2^64 values.",
  "Awl/Decimal.h: operator-, negate")
p("C77", "set_mantissa and mantissa",
  "After set_mantissa(m) the decimal has the digit count it had and mantissa() is m, if |m| fits the mantissa, whatever the sign was before.",
  "every decimal, every m",
  "2^128 combinations.",
  "Awl/Decimal.h: set_mantissa, mantissa")
p("C78", "Length limit of strings",
  "With a context that limits the length of strings, a string that is longer than the limit is refused with an I/O exception when it is written and when it is read, before memory for it is allocated; no string that is read exceeds the limit.",
  "every limit, character size, string, and every content of the stream",
  "The length field in a stream can be any 64-bit number; tests try a few.",
  "Awl/Io/Rw/StringReadWrite.h: CheckStringLimit, Read, Write; Awl/Io/SerializationContext.h: LimitedContext")
p("C79", "Reading arbitrary bytes is safe",
  "Whatever bytes a stream contains, reading an object of any type either throws or yields an object that obeys the rules of its type (enumerators in range, sets sorted without duplicates, rings within their limit, strings within the length limit) and consumes no more than the stream has; it is never undefined behaviour.",
  "every type, every previous value of the object, every byte sequence",
  "Corrupted and hostile inputs are unlimited in number.",
  "Awl/Io/Rw/*.h: Read")
p("C80", "Time points survive serialization",
  "A time point that is written and read back is equal to the original.",
  "every tick length and every time point",
  "The result depends on the ratio of the clock's tick and a nanosecond; tests use the system clock of one platform.",
  "Awl/Io/Rw/ChronoReadWrite.h: Read, Write")
p("C81", "A failed version tolerant read leaves the object unchanged",
  "If VersionTolerantSerializable::Read throws, the object has the value it had before, whatever the stream contains.",
  "every structure type, movable or not, every previous value, every byte sequence",
  "The exception can be thrown at any point of the stream.",
  "Awl/Io/VersionTolerantSerializable.h: Read, WriteSnapshot, ReadSnapshot")
p("C82", "An I/O error while writing a hashed stream is reported",
  "If the underlying output stream fails while a hashed or buffered stream writes to it (the disk is full), the user gets the exception of the underlying stream.",
  "every content, division into writes and position of the failure",
  "The failure can come at any byte; and the destructor of the stream writes too.",
  "Awl/Io/HashStream.h: HashOutputStream::Write, Flush, ~HashOutputStream; Awl/Io/HashingSerializable.h: WriteSnapshotImpl")
p("C83", "A hashed input stream is safe on arbitrary bytes",
  "Whatever bytes a hashed input stream is opened on and whatever calls are made, every call returns data, reports the end of the stream or throws a corruption exception, without undefined behaviour, also after a corruption exception.",
  "every byte sequence, hash, block size and sequence of calls",
  "Quantifies over all byte sequences and call sequences.",
  "Awl/Io/HashStream.h: HashInputStream::PeekBuf, FlushBuf, Read, End")
p("C84", "CRC-64 protected blocks detect every burst error of up to 64 bits",
  "A change of a stored block that is confined to 8 consecutive bytes anywhere in the block, including a change across the end of the payload and the beginning of the stored hash, is reported.",
  "every seed, payload and error pattern",
  "2^64 error patterns per position.",
  "Awl/Io/HashStream.h; Awl/Crypto/Crc64.h: operator() (to_array); Awl/Int2Array.h: to_array")
p("C85", "A hashed stream works over any input stream",
  "Reading a hashed stream gives the written data also if the underlying stream returns fewer bytes than asked for, as pipes and sockets do and as the interface of Read allows.",
  "every content and every sequence of lengths of the underlying reads",
  "Short reads do not happen with the memory and file streams of the tests.",
  "Awl/Io/HashStream.h: HashInputStream::PeekBuf; Awl/Io/SequentialStream.h: Read")
p("C86", "A Load that fails leaves the value unchanged",
  "If AtomicStorage::Load answers false, the object has the value it had before.",
  "every contents of the two files and every value",
  "Needs files that were damaged or cut in every possible way.",
  "Awl/Io/AtomicStorage.cpp: Load, LoadFromFile")
p("C87", "A file with another header is not accepted",
  "A value saved with a header (format name and version) is read only by an object that expects the same format name and the same version; otherwise an I/O exception is thrown and nothing is read.",
  "every pair of headers, every value and format of the value",
  "Quantifies over all pairs of headers.",
  "Awl/Io/HeaderedSerializable.h: ReadHeader, WriteHeader")
p("C88", "Saving through a snapshot gives the same file",
  "Saving with a mutex (a snapshot is taken under the lock and written later) gives the same bytes as saving without one.",
  "every value, every division of its bytes into writes, every block size and hash",
  "The tests read the file back but do not compare it byte by byte for all values.",
  "Awl/Io/AtomicStorage.cpp: Save; Awl/Io/EuphoricallySerializable.h: MakeShanshot; Awl/Io/HashingSerializable.h: Write, WriteSnapshotImpl")
p("C89", "A file with data behind the value is not accepted",
  "LoadFromFile reports success only if nothing is left in the file after the value.",
  "every file contents",
  "Needs files with every possible continuation.",
  "Awl/Io/AtomicStorage.cpp: LoadFromFile; Awl/Io/HashStream.h")
p("C90", "A unique pointer deletes its object exactly once",
  "For every history of construction, release, reset, swap, moving and destruction of unique_ptr variables, every object given to a pointer is deleted exactly once, unless it was released.",
  "every history of operations on any number of pointer variables",
  "Quantifies over all histories, including self-move.",
  "Awl/UniquePtr.h")
p("C91", "Comparison of text without regard to case is an order",
  "Case-insensitive comparison is the lexicographic order of the lower-case texts: a strict weak order whose equivalence is equality of the lower-case texts; so it can be the comparator of a set or map.",
  "every pair and triple of texts",
  "Order laws quantify over all texts, including characters outside ASCII.",
  "Awl/String.h: CStringInsensitiveLess, StringInsensitiveEqual; Awl/EnumTraits.h: enum_from_string")
p("C92", "A separator is written between elements only",
  "Writing a sequence with a separator gives the texts of its elements joined by the separator: none before the first and none after the last.",
  "every sequence and separator",
  "Quantifies over all sequences.",
  "Awl/Separator.h")
p("C93", "A test sees the attribute values given on the command line",
  "A value written as text by the library's formatter and given as the value of an option is what the test reads for the attribute; a text that is no value of the type is not taken for one.",
  "every scalar type, every value, every text and every collection of texts",
  "Ranges of 2^32 and 2^64 values; the failing ones are silently replaced by the default.",
  "Awl/Testing/ScalarFormatter.h, Awl/Testing/Formatter.h, Awl/Testing/LocalAttribute.h")
p("C94", "The shared stop state lives exactly as long as it is needed",
  "The state shared by stop sources, tokens and callbacks exists as long as one of them does and is deleted when the last one is destroyed, in every order of destruction.",
  "every history of copies, destructions, registrations and stop requests of all threads",
  "Quantifies over all histories; a use of freed memory usually goes unnoticed.",
  "Extras/JThread/JThreadExtras/stop_token.hpp: __stop_state")
p("C95", "An interruptible wait loses neither the stop request nor a notification",
  "When request_stop has returned, no thread is or becomes blocked in a wait with a token of that stop state, and its wait returns; the same holds for notify_all after a change of the condition under the lock. A wait returns with the lock held, tells whether the condition is true, and returns false only after a stop request or when its time is over. No deadlock, and no use of the condition variable by a callback after the wait has returned.",
  "every number of waiting, notifying and stopping threads, timed and untimed waits, every interleaving, spurious wake-ups included",
  "A lost wake-up needs one particular interleaving of two threads; tests hardly ever produce it.",
  "Extras/JThread/JThreadExtras/condition_variable_any2.hpp: wait, wait_until, wait_for, notify_one, notify_all")
p("C96", "A generator gives the values its coroutine yields",
  "Iterating over a generator gives exactly the values yielded by its coroutine, in order, and the exception that ended it; fmap applies its function to each. begin() gives an iterator to the current value, the end iterator if there is none. A coroutine belongs to one generator and is destroyed with it, whatever is moved, swapped or assigned.",
  "every coroutine body, every history of generators and iterators",
  "Quantifies over all bodies and all histories of moves, assignments and iterators.",
  "Awl/Coro/Generator.h: Generator, fmap")
p("C97", "An asynchronous generator answers every await once, in order",
  "Every co_await of begin() or ++ is answered exactly once, by the next value, the end or the exception of the producer, and resumes the consumer that awaits; no value is lost or delivered twice, however the producer is suspended in between.",
  "every producer, any number of consumers and generators, every order in which the awaited things get ready",
  "Depends on the order of resumptions of two coroutines.",
  "Awl/Coro/AsyncGenerator.h: AsyncGenerator, promise_type, advance_op, begin_op, increment_op")
p("C98", "A file stream writes all or throws, and reads what was written",
  "Write stores all bytes at the position or throws and leaves the file as it was; Read gives the next bytes; End tells whether there is nothing to read; Seek, Move and Truncate do what they say.",
  "every file, every position, every block of every length",
  "Needs files of more than 2 GB, full disks and positions behind the end.",
  "Platforms/Posix/Awl/Io/NativeStream.h: PosixStream")
p("C99", "A file descriptor is closed exactly once",
  "A descriptor is open exactly as long as a handle has it: it belongs to one handle, moves with it, and is closed once.",
  "every history of construction, move, assignment and destruction of handles",
  "Quantifies over histories; a double close hits an unrelated file.",
  "Platforms/Posix/Awl/Io/UniqueHandle.h: UniqueHandle; Platforms/Posix/Awl/Io/NativeStream.h")
p("C100", "Optional settings never get in the way of the program",
  "Opening, loading and saving optional settings do not throw because of the file system: if the files cannot be opened or read, the values stay as they are; otherwise the storage works as the crash-safe one.",
  "every content of the files, every failure of the file system",
  "Failures of the file system at every point cannot be produced by a unit test.",
  "Awl/Io/OptionalStorage.h, Awl/Io/OptionalStorage.cpp: Open, Load, Save")
p("C101", "A persistent object loads and saves its own value",
  "load puts what the files hold into the value of the object, save stores the value of the object; no other object is touched, and moving the object does not change that.",
  "every history of construction, move, destruction, assignment, open, load, save and close of objects",
  "Quantifies over histories; references to a moved object are silent errors.",
  "Awl/Io/PersistentObject.h")
p("C102", "A joining thread is stopped and joined exactly once",
  "A started thread belongs to one jthread object with its own stop source, wherever it is moved. Destruction and assignment request the stop of this thread and wait for its end; nothing calls terminate; every thread is joined or detached exactly once.",
  "any number of threads and objects, every history and interleaving",
  "Quantifies over interleavings of threads that own each other's objects.",
  "Extras/JThread/JThreadExtras/jthread.hpp")
p("C103", "The watch dog stops its token exactly when told to",
  "The token of a watch dog is stopped when the user's token is stopped or the timeout is over, and for no other reason while the object lives. The log function is called at most once, only after the timeout, and only while the object lives. Destruction ends the thread, without waiting for the timeout.",
  "every interleaving of the owner, the watching thread, the clock and the user, including before construction is complete and during destruction",
  "Interleavings of construction and destruction with a timeout cannot be produced by a unit test.",
  "Awl/WatchDog.h: watch_dog")
p("C104", "A singleton has one instance at a time",
  "A shared singleton is made at most once and every call returns it while it lives, nullptr after its death. An on-demand singleton has at most one living instance and every call returns it, or makes a new one.",
  "every history of calls and releases, failing constructors, and interleavings of calls of several threads",
  "Quantifies over histories and interleavings.",
  "Awl/SharedSingleton.h: shared_singleton, ondemand_singleton")
p("C105", "The tables of version tolerant serialization are those of the type",
  "For every AWL_REFLECT structure that can be written field by field, the variant made of it lists the types inside of it, once each, in the order of their first occurrence, the tables made of the variant describe every structure inside of it, and what is written with them is read back.",
  "every type built of the supported types, of any depth",
  "The tables are computed by the compiler from the type; a test has a few types.",
  "Awl/Mp/TypeCollector.h, Awl/Mp/TupleToVariant.h, Awl/Mp/VariantFromStructs.h, Awl/TupleHelpers.h: find_variant_type_v, Awl/Prototype.h, Awl/Io/PrototypeContainer.h")
p("C106", "The name of a type tells what is needed to read it",
  "Two types have the same name in the stream only if they have the same representation up to the kind of integer, of sequence, and of structure; a field that kept its name and got a type with another name is reported.",
  "every pair of types built of the supported types, of any depth",
  "Quantifies over all pairs of types; names are strings with numbers and brackets in them that could be confused.",
  "Awl/Mp/TypeDescriptor.h: make_type_name, type_descriptor, FormatNumber; Awl/Io/Reader.h")
p("C107", "Memberwise comparison and hash",
  "Objects of a class with AWL_MEMBERWISE_COMPARABLE are equal exactly if all members are, compare by the first member that differs, the six operators agree with each other, and < can order a set if that of each member can; equal objects, and equal vectors, have equal hashes, and a change of the last member's hash changes the hash.",
  "every class, every member type whose < is a strict weak order, all objects",
  "Quantifies over all classes and values; consistency of the operators and transitivity are about all triples.",
  "Awl/Tuplizable.h: AWL_MEMBERWISE_EQUATABLE, AWL_MEMBERWISE_COMPARABLE; Awl/Hashable.h: CombineHash, HashValueImpl, std::hash")
p("C108", "A shared handle is closed exactly once",
  "A handle given to a SharedHandle, and every handle made by copying, is closed exactly once, by the variable that has it, and not used afterwards; a copy and an assigned variable stand for the same object as the source, which is not changed; an empty variable is copied to an empty one; assigning a variable to itself changes nothing.",
  "every sequence of constructions, copies, moves, assignments and destructions",
  "Quantifies over all histories; leaks and double closes have no visible effect in a test.",
  "Platforms/Windows/Awl/Io/SharedHandle.h, Platforms/Posix/Awl/Io/SharedHandle.h")
p("C109", "A single linked list is a stack of its elements",
  "After any sequence of push_front, pop_front and clear on any number of lists, the loop over a list gives exactly the elements added and not removed, the last added first; front, empty, size, empty_or_contains_one and contains_one agree with it; pop_front gives the element added last; an element says it is included exactly if it is in a list.",
  "every sequence of calls on any lists and elements in which an element is added to one list at a time and is not destroyed in a list",
  "Quantifies over all sequences and shapes of the pointers.",
  "Awl/SingleList.h, Awl/SingleLink.h, Awl/SingleIterator.h")
p("C110", "Factory functions are called by their name",
  "create<T>(name, args...) calls the function registered with the name whose result is T and that accepts the arguments, wherever in the program it is registered, and throws FactoryException if there is none; a name is not registered twice for the same type; links that end are not found any more.",
  "every set of registrations, in every order of initialization, all names and arguments",
  "Quantifies over all programs (sets of registrations) and all types of arguments.",
  "Awl/StaticChain.h, Awl/StaticFactory.h: create, AWL_FACTORY, AWL_REGISTER_FACTORY; Awl/StaticSingleton.h")
p("C111", "Multiprecision integers survive a round trip",
  "Any value of a Boost multiprecision integer type written to a stream and read back into the same type gives the same value and leaves the stream after it; a stream that ends too early is an error; different types are told apart by the names that version tolerant serialization stores.",
  "all values of the types with 128, 256, 512 and 1024 bits, signed and unsigned, followed by any bytes",
  "There are up to 2^1024 values.",
  "Extras/Boost/BoostExtras/Io/Rw/MultiprecisionReadWrite.h: Read, Write; Extras/Boost/BoostExtras/MultiprecisionTypeName.h")
p("C112", "The parts of a packed multiprecision decimal are independent",
  "Sign, exponent and mantissa put into a packed decimal are got back, and setting one part does not change the others, for any values accepted.",
  "all numbers of bits of the exponent, all packed values and all parts",
  "Quantifies over all values of 128 bits and more.",
  "Extras/Boost/BoostExtras/MultiprecisionDecimalData.h")
p("C113", "Rounding, clamping and the sign of numbers",
  "round gives an integer nearest to the number; clamp gives the value itself if it is between the bounds and otherwise the bound on its side; sign gives 1, 0 or -1.",
  "all numbers, all ranges of integer types, all comparators that are strict weak orders, all bounds that are not swapped",
  "Quantifies over all numbers and comparators.",
  "Awl/Math.h: round, clamp, sign")
p("C114", "The fields of nested structures are counted and numbered",
  "countof_fields gives the number of the primitive fields of a type, counting the fields of structures inside it, and indexof_type gives the position of a type among them: the first if there are several, none if there is none; an index is always less than the count.",
  "all types made of primitive types and structures, nested to any depth",
  "Quantifies over all types; the computation is done by the compiler.",
  "Awl/Io/TypeIndex.h")
p("C115", "Streams of the standard library are read and written completely",
  "Reading through the adapter of a standard input stream gives the bytes of the stream in order, in parts as long as requested while there are enough, and says End when there are none left; a write that returns without an exception has passed on all its bytes.",
  "all contents, all sequences of reads, writes and failures of the device",
  "Depends on the buffer and on failures of the device.",
  "Awl/Io/StdStream.h; Awl/Io/ReadRaw.h")
p("C116", "A test assertion fails exactly if what it asserts is false",
  "IsTrue and IsFalse fail exactly if the condition is not met, Throws fails exactly if the expected exception is not thrown, AreEqual fails exactly if the values differ; the failure is a TestException.",
  "all conditions, all class hierarchies of exceptions, all endings of the function, all values of all integer types",
  "Quantifies over all values and exception hierarchies.",
  "Awl/Testing/TestAssert.h")
p("C117", "The output of a failed test is shown, that of passed tests is not",
  "When tests run with filtered output, the report after a failure shows exactly the output of the test that failed, and if all tests pass no output is shown; the chain of tests is unlinked as a whole at the end.",
  "all numbers of loops, all tests, outputs and outcomes",
  "Quantifies over all sequences of outcomes.",
  "Awl/Testing/TestMap.cpp: InternalRun; Awl/Testing/TestConsole.cpp: RunTests; Awl/Testing/TestChain.h")
p("C118", "A fixed string is the text it was made of",
  "A fixed string made of a literal has its text, size, characters by index and terminated C string; the sum has the text of both; two are equal exactly if their texts are; ASCII texts are the same text in every character type.",
  "all texts of all lengths",
  "Quantifies over all texts.",
  "Awl/FixedString.h")
p("C119", "The hash of a text identifies it",
  "A text has the same hash as a string, a string view, a fixed string and a literal, and different texts have different hashes, so that a switch over the hash goes to the case of the text.",
  "all seeds, all texts of characters of one byte",
  "Quantifies over all pairs of texts.",
  "Awl/Crypto/FixedHash.h; Awl/Crypto/IntHash.h; Awl/Crypto/Crc64.h; Awl/Mp/TypeHash.h")
p("C120", "Version tolerant reading of arbitrary bytes is safe",
  "Whatever bytes a stream contains, reading an object of any structure type with the version tolerant reader (tables of names, maps of fields, skipped fields) either throws or yields an object that obeys the rules of its type and consumes no more than the stream has; it is never undefined behaviour.",
  "every structure type with its tables, every previous value of the object, every byte sequence",
  "Corrupted and hostile inputs are unlimited in number.",
  "Awl/Io/Reader.h: ReadV, ReadStructIndex, FindProtoMap, SkipField, SkipStruct; Awl/Io/Vts.h: ReadV")
p("C121", "The reader without tables reads back what a writer of the same version wrote",
  "Objects that the version tolerant writer has written are read back one after another by the plain reader, with the same result as the version tolerant reader gives; a stream that ends too early is reported with an exception; arbitrary bytes throw or give an object that obeys the rules of its type. The versions of the writer and of the reader are the same.",
  "all structure types, all values, all numbers of objects, all truncations, all byte sequences",
  "Quantifies over all values, types and byte sequences.",
  "Awl/Io/PlainReader.h: ReadV; Awl/Io/BasicReader.h; Awl/Io/Writer.h: WriteV")
p("C122", "A stop watch tells whether an interval has elapsed",
  "HasElapsed(interval) is true exactly if the time since the start or the last reset is at least the interval, and stays true until the next reset; the elapsed count in a unit is the number of whole units that have passed.",
  "all start times, all intervals in all units, all times of the query",
  "Tests cannot wait for long intervals nor hit exact moments.",
  "Awl/StopWatch.h: StopWatch")
p("C123", "A printed duration shows the duration",
  "The text of a duration shows exactly that duration with its sign, so that different durations of the same unit have different texts, and no more parts than were asked for.",
  "all durations of all decimal units, all numbers of parts",
  "Quantifies over all 64 bit counts.",
  "Awl/Time.h: format_duration, operator << for StopWatch")
p("C124", "A time made of a date is that date",
  "make_time of a date and a time of the day is a moment at which the local clock shows that date and time, in every time zone and with changes of the offset, and the given fraction of a second is added.",
  "all dates of the Gregorian calendar, all times of the day, all time zones, all units of the clock and of the result",
  "Quantifies over all dates, including leap days and century years.",
  "Awl/Time.h: make_time")
p("C125", "A decimal converted to double and back is the same decimal",
  "The conversion of a decimal to double gives the double nearest to the number, keeps the order of decimals, and converting that double back with the same number of digits gives the same decimal.",
  "all decimals of every configuration, all numbers of digits",
  "Quantifies over all mantissas; rounding errors show up at particular numbers only.",
  "Awl/Decimal.h: cast, operator double, operator = (Float), make_decimal, make_rounded")
p("C126", "A decimal made of a double is on the side of the double that the name of the function says",
  "make_truncated is not greater in magnitude than the double, make_floored not greater, make_ceiled not less, each off by less than one unit of the last digit; make_rounded is off by at most half a unit; a number that does not fit is reported.",
  "all doubles, all numbers of digits",
  "Quantifies over all doubles.",
  "Awl/Decimal.h: make_decimal, make_truncated, make_rounded, make_ceiled, make_floored")
p("C127", "Arithmetic of a decimal with a double is exact to the last digit",
  "Adding, subtracting, multiplying and dividing with a double gives the exact result if it has the digits of the decimal, otherwise a result that is off by less than one unit of the last digit; in particular multiplying by one changes nothing.",
  "all decimals, all doubles",
  "Quantifies over all decimals and doubles.",
  "Awl/Decimal.h: operators + - * / += -= *= /= with double, make_other")
p("C128", "Text converted between narrow and wide characters is the same text",
  "Converting a wide text to the encoding of the locale and back, or a narrow text to wide characters and back, gives the same text; a text that cannot be converted is reported with an exception; no text leads to undefined behaviour.",
  "all texts, all locales whose encoding has no shift states",
  "Quantifies over all texts and encodings; the unit tests use ASCII.",
  "Awl/String.h: EncodeString, DecodeString, StringConvertor, FromAString, ToAString, FromWString")
p("C129", "A printed 128 bit number shows its digits in the given width",
  "Printing a 128 bit number gives its decimal digits without leading zeros, a minus for negative numbers, filled up on the left to the width of the stream with its fill character, and nothing more if the number is longer than the width.",
  "all 128 bit numbers, all widths, all fill characters",
  "Quantifies over 2^128 numbers and all widths.",
  "Awl/String.h: operator << for __uint128_t and __int128_t")
p("C130", "Iterating over an interval map visits every key once, in order, with its value",
  "A loop from begin() to end() over an interval map visits every key of every stored interval exactly once, in ascending order, together with the value that is stored for it, and then ends.",
  "all interval maps reachable by insertions, all key types and all sizes of intervals",
  "Quantifies over all maps, key types and interval lengths; the unit test looks at a few short intervals.",
  "Tests/Experimental/IntervalMap.h: MyIterator, begin, end, rbegin")
p("C131", "A vector_set gives back all memory it takes, to the allocator it was given",
  "Every block of memory is taken from the allocator the set was given (by a constructor, or with the elements of another set) and given back to it exactly once, at the latest when the set is destroyed, also if a constructor of an element throws; get_allocator() returns that allocator.",
  "all histories of constructions, copies, moves, assignments, insertions, erasures and destructions over any number of sets with different allocators, all exceptions of element constructors",
  "Leaks and mismatched deallocations are not observable in a test without instrumented allocators, and the histories are unbounded.",
  "Awl/VectorSet.h: CreateNode, DestroyNode, constructors, assignments, destructor, insert, emplace, erase, clear, get_allocator")
p("C132", "A decimal made of an integer is that integer, and its integer part is its integer part",
  "Making a decimal of an integer, with any number of digits behind the point, gives exactly that integer or an exception; casting a decimal to an integer type gives its integer part, the fraction is dropped towards zero; comparing a decimal with an integer compares the numbers.",
  "all integers, all integer types, all decimals, all numbers of digits",
  "Quantifies over all 64 bit integers and decimals; the unit tests cast 1.",
  "Awl/Decimal.h: operator = (Float), make_decimal, make_rounded, make_ceiled, make_floored, make_truncated, cast, operator double")
p("C133", "A condition variable wakes the threads that wait, and may be destroyed as soon as they are notified",
  "A wait releases the lock and blocks in one act as seen by the notifying threads, so that notify_all wakes every thread that waits and notify_one one of them, and no notification after a change of the condition is lost. A wait returns with the lock held, or throws what the predicate throws with the lock held; it tells whether the predicate is true, false only if the wait is timed and its time is over; without a predicate the status tells whether the time is over. No deadlock. The object may be destroyed while threads that were waiting have not yet returned, and its memory is released when the last of them has.",
  "every number of waiting and notifying threads, waits with and without a predicate, timed and untimed, every interleaving, spurious wake-ups and exceptions of the predicate included",
  "A lost wake-up or a use of the destroyed object needs one particular interleaving; tests hardly ever produce it.",
  "Extras/JThread/JThreadExtras/condition_variable_any2.hpp: wait, wait_until, wait_for, notify_one, notify_all, ~condition_variable_any2")
p("C134", "A floating point number is rounded to the nearest integer",
  "round of a floating point number gives the integer nearest to it, halves upwards, for every number of the type whose nearest integer the result type can hold; a result that it cannot hold is undefined.",
  "every floating point number of every precision (float, double), every integer type of the result",
  "The sum with one half is itself rounded; the numbers for which that matters are one in 2^52 or have sixteen digits, and tests pick round ones.",
  "Awl/Math.h: round")
p("C135", "Degrees and radians are converted to within the precision of the type",
  "degrees_to_radians gives x times pi / 180 and raidans_to_degrees x times 180 / pi for the real number pi, with an error of at most 5/2^(p+1) of the result, p+1 being the binary digits of the type; converting there and back gives the number with the same bound; order and sign are kept; 180, 90 and 45 degrees are exactly pi, half_pi and quarter_pi and back, and half_pi and quarter_pi are exactly a half and a quarter of pi.",
  "every finite number, every precision from ten digits to that of double",
  "A bound on the rounding error is a statement about all numbers, against the irrational number pi; tests compare a few values with a tolerance.",
  "Awl/Math.h: pi, half_pi, quarter_pi, degrees_to_radians, raidans_to_degrees")
p("C136", "A stop watch tells floating point times and intervals to within the precision of the type",
  "The elapsed count in any period is right to within 6/2^(p+1) of itself, seconds to within 3/2^(p+1) and the nearest number of the type if the nanoseconds have no more than its p+1 digits, whole seconds exactly; later times are not less. HasElapsed for floating point seconds is true only if the interval has passed and false only if it has not, up to the rounding of the interval; exactly so for whole seconds; what has elapsed stays so; the seconds told at a time have elapsed at that time and had not two nanoseconds before. The call is defined for all intervals up to 2^62 nanoseconds.",
  "every elapsed time, every finite interval, every precision (float, double)",
  "The error depends on the digits of the elapsed nanoseconds; a test sees the times at which it happens to run and compares with a tolerance.",
  "Awl/StopWatch.h: GetElapsedCount, GetElapsedSeconds, HasElapsed")
p("C137", "A file stream on Windows writes all or throws, reads what was written, and goes where it is told",
  "A Write that returns has written all bytes at the position and left the others; it throws if and only if the disk has no room. Read gives the next bytes, as many as asked for if there are so many, none only at the end. Seek and Move go to the position or throw. Truncate makes the position the end. End, GetLength and GetPosition tell length and position or throw if no file is open. GetFileName gives the path. What returns on POSIX does the same on Windows.",
  "every file, position, buffer of any length and offset; every way in which a full disk answers; streams with and without a file",
  "Buffers of 4 GB, positions before the beginning and streams without a file are not in the tests, and the tests of this platform run on Windows only.",
  "Platforms/Windows/Awl/Io/NativeStream.h: WinStream")
p("C138", "Opening a storage tells whether it was there and changes nothing that was",
  "Open of a storage answers whether one of its two files was there before the call; files that are there keep their contents, files that are made are empty. If it throws, the storage is closed, no descriptor is left open and no file was made. Outside of Open a storage has both files open or none, IsOpened tells which, IsEmpty tells whether both are empty. A storage that is told that no file was there is empty. No two storages have the same file open.",
  "every history of calls of Open, Close and Save by any number of threads, each with its own storage, every interleaving of the system calls with those of other threads and processes, every set of names that cannot be opened; POSIX and Windows",
  "On POSIX there are two system calls for the question and the opening; a test does not run anything between them.",
  "Awl/Io/AtomicStorage.h: Open, IsOpened, IsEmpty, Close; Platforms/*/Awl/Io/NativeStream.h: CreateUniqueFile, OpenedExisting")
p("C139", "Pooled objects may use the pool in Finalize and in their destructors",
  "Whatever Finalize and the destructors of pooled objects do with the pool and with pointers to its objects: no pointer points to an object that is free or destroyed; each object is destroyed at most once; Finalize is called once each time an object that was taken is given up, also if make fails for want of memory; clear ends only when no object is free, and if no pointer is left then, all objects are destroyed. While Finalize of an object runs the object is not handed out again, is not destroyed and is not finalized again.",
  "every history of make, failed make, copying and dropping of pointers and clear, nested in Finalize and in destructors to any depth",
  "The tests of the pool have objects that do nothing in Finalize; the nesting is unbounded.",
  "Awl/ObjectPool.h; Awl/PooledObject.h")
p("C140", "A set and its mirrors agree also after an observer has thrown",
  "When an observer of a set throws while the set notifies it (a mirror does so if its order does not distinguish elements, or if it is told of the removal of an element it does not have) and the program catches the exception and goes on: no operation is undefined, no mirror has an element that the source does not have, and after a clear that returns the source and all its mirrors agree. The mirrors agree with the source also before that, and an element can still be erased.",
  "every history of insert, erase, clear, reflect and subscriptions, every number of mirrors with any orders, observers that throw at any events",
  "The tests stop at the first exception; the interplay of several mirrors after it is not tested.",
  "Awl/ObservableSet.h: insert, erase, clear; Awl/MirrorSet.h: OnAdded, OnRemoving, OnClearing, reflect; Awl/Observable.h: Notify")
p("C141", "Settings are found again by their names",
  "Any number of persistent objects open, load, save, close and remove settings by name in one directory, while operations of the file system fail at any place. What an object has saved under a name is what every object gets that later opens that name and loads; a save that fails leaves the old or the new value; other settings are not touched; removed settings are gone; no failure loses what is stored.",
  "every history of calls on any objects and names, with atomic and optional storages, every point of failure of opening, reading, writing and removing",
  "Failures of the file system and their combinations with other objects are not produced by the tests.",
  "Awl/Io/PersistentObject.h: open, load, save, close, remove, append_extensions; Awl/Io/AtomicStorage.h, Awl/Io/AtomicStorage.cpp; Awl/Io/OptionalStorage.cpp")
p("C142", "Copies of stop tokens and sources refer to the same stop state",
  "Stop sources and stop tokens behave like plain values that name a flag, through copying, moving, copy and move assignment (also to themselves), swapping, comparing and destroying, with any number of stop states: a request through one source is seen by exactly the sources and tokens that name the same flag, succeeds once, and calls each callback registered with that flag once; a callback registered later is called at once; the stop state lives as long as a source exists and is deleted with its last reference.",
  "every program of calls on any number of sources, tokens and callbacks",
  "Tests copy a few tokens; the books of references over all sequences of copies, moves and assignments are not testable.",
  "Extras/JThread/JThreadExtras/stop_token.hpp: stop_token, stop_source, stop_callback")
p("C143", "A program reads the files of earlier versions of its types",
  "A program whose structures have gained, lost, reordered and renamed fields, at any depth of nesting, reads what an earlier version of the program has written with the tables that the two programs derive from their C++ types: a field that still exists gets the written value, wherever it is now, a new field keeps the value it had, a removed field is passed over, nothing after the data is consumed, and truncated data are reported.",
  "all pairs of C++ types related by such changes, all values, all data that follow",
  "Tests have a few versions of two structures; the tables, the names of types and the matching of structures interact over all types.",
  "Awl/Io/Reader.h: ReadOldPrototypes, AttachMetadata, ReadV, SkipField, FindProtoMap; Awl/Io/Writer.h: WriteNewPrototypes, WriteV; Awl/Io/PrototypeContainer.h; Awl/Io/TypeDescriptor.h; Awl/Io/Vts.h")
p("C144", "The settings survive an update of the program and a crash",
  "If a program was stopped at any moment while it saved its settings and is then replaced by a newer version whose structures have gained, lost, reordered or renamed fields, the newer version loads the settings saved before or those that were being saved, converted to its own structures, even if it is itself stopped while loading them, any number of times. A program that cannot read the files of another one does not destroy them.",
  "all pairs of C++ types related by such changes, all settings, all moments of the crash, all sequences of interrupted loads",
  "The combination of crash recovery, checksums, headers, derived tables and changed structures cannot be enumerated; a test would have to stop two programs at every operation.",
  "Awl/Io/AtomicStorage.h; Awl/Io/AtomicStorage.cpp: Load, Save, LoadFromFile; Awl/Io/HeaderedSerializable.h; Awl/Io/HashingSerializable.h; Awl/Io/VersionTolerantSerializable.h: Read; Awl/Io/Reader.h; Awl/Io/Writer.h")
p("C145", "The nodes of vector_set are linked correctly and none is lost",
  "After any history of insert, erase, clear and queries on a vector_set, with any comparison that is a strict weak order, the nodes in memory are exactly the elements of the mathematical sorted set: every node is reached once from the root, its children point back to it, its counter is the number of nodes below it, and the list that iteration follows has the same nodes in the same order forwards and backwards. The operations report what the mathematical set reports, never follow a null pointer or the pointer to a freed node, never free a node twice, and always end. A pointer to an element stays valid, with the same value, until that element is removed, and removing it frees its node; clear and the destructor leave nothing allocated.",
  "all strict weak orders, all histories of operations, all elements",
  "A wrong parent pointer or link does not show until a later operation climbs through it; the rebalancing cases depend on the shape of the tree, and there are infinitely many.",
  "Awl/VectorSet.h: Node, UpdateCount, SetParent, SetLeft, SetRight, CopyFrom, CreateNode, DestroyNode, insert, erase, clear, find, lower_bound, upper_bound, index_of, operator[], at, InsertNode, RemoveNode, RotateLeft, RotateRight, BalanceAfterInsert, BalanceAfterRemove, GetPredecessor, GetSuccessor; Awl/QuickLink.h; Awl/QuickList.h")
p("C146", "An exception leaves a vector_set as it was",
  "If the comparison, the constructor of an element or the allocator throws during insert, emplace, erase or a look-up on a vector_set, the set is what it was before the call: the same elements in the same order, every node and link untouched, every iterator and pointer still valid. Later calls report what they would report if the failed call had never been made. A call that makes no element has not taken any memory, and a call never throws on its own account. No memory is lost.",
  "all strict weak orders, all programs of calls that catch their exceptions, all moments at which the user's code may throw",
  "Every call has as many moments at which an exception may be thrown as it makes comparisons, and a program combines them freely; what is lost does not show in the results.",
  "Awl/VectorSet.h: CreateNode, DestroyNode, insert, emplace, find, contains, erase, lower_bound, upper_bound, UniversalInsert, FindNodeByKey, FindBoundByKey, InsertNode")
p("C147", "An exception leaves a ring as it was",
  "If the constructor of an element or the allocator throws during push_back, push_front, reserve, a copy construction or a copy assignment of a ring, then the ring can still be used and destroyed and shows what it has shown before the call, and no memory is lost. Later calls do what they would do if the failed call had not been made.",
  "all element types, all programs of calls that catch their exceptions, all moments at which the user's code may throw",
  "The tests use elements that do not throw and memory that does not run out; every element of a buffer is another moment at which an exception may be thrown, and what is lost does not show in the results.",
  "Awl/Ring.h: push_back, push_front, reserve, copy constructor, copy assignment, allocate_next, allocate_prev, copy, free, clear, pop_front, pop_back, destructor")
p("C148", "A foreign_set agrees with its source also after an exception",
  "If an observer of a set throws during insert, erase or clear, or a foreign_set of the set runs out of memory, and the program catches the exception and goes on, then every foreign_set of the set still shows exactly the elements of the set, grouped by foreign key, and later operations of the set are defined.",
  "all sets, all numbers of foreign_sets with any keys and of other observers in any order of subscription, all programs of insert, erase, clear, construction and destruction of foreign_sets, all choices of the observers that throw",
  "The tests have observers that do not throw and memory that does not run out, and one foreign_set; what goes wrong shows only when the elements that were involved are erased later.",
  "Awl/ForeignSet.h: foreign_set, OnAdded, OnRemoving, OnClearing, find; Awl/ObservableSet.h: insert, erase, clear; Awl/Observable.h: Notify, Observer")
p("C149", "Observers of a group of a foreign_set are told every change of it until it ends",
  "An observer that is subscribed to the group of a foreign key is told each addition and removal of an element of the source with this key, in order and nothing else; during the call it finds exactly the elements of the source with the key, and so does a mirror_set of the group at any time. When the last element with the key goes, or the source is cleared, the observer is told once that the set is being cleared and is not subscribed any longer, also if elements with the key are added later.",
  "all sources and keys, all histories of changes of the source, of subscriptions to the groups and of unsubscriptions, any number of observers",
  "The groups are created and destroyed by the events of the source; whether an observer misses a change, or is told about another key, depends on the whole history of all the groups.",
  "Awl/ForeignSet.h: foreign_set, OnAdded, OnRemoving, OnClearing, find; Awl/ObservableSet.h: insert, erase, clear, ~observable_set, Subscribe, Unsubscribe; Awl/MirrorSet.h: mirror_set")
p("C150", "An exception leaves an interval_map as it was",
  "When assign throws, because an allocation, a copy or a comparison of values does, the map is usable and as it was before the call. (What holds: no key has got a value that was not assigned to it; if a comparison threw, the assignment is complete; otherwise keys that have lost their values are in the interval [a, b] or had the same value as a together with all keys between. Every later call does what it does without the exceptions.)",
  "all integral key types, all histories of calls, each of which may fail at any of its operations that can throw",
  "assign takes intervals out of the map and puts parts of them back; what is lost depends on which allocation fails and how the intervals overlap, and on what earlier failures have left.",
  "Tests/Experimental/IntervalMap.h: interval_map::assign, at, contains")
p("C151", "A value of an interval_map can be assigned to other keys of it",
  "m.assign(a, b, m.at(k)) assigns to the keys a ... b the value that k had before the call. (What holds: if the interval of k has no keys in [a, b], or begins there and ends behind b. In all other cases the call reads a value that it has destroyed.)",
  "all integral key types, all maps that calls of assign leave, all keys a, b, k",
  "A destroyed value often still reads as before, and whether it is destroyed depends on how the interval of k overlaps [a, b].",
  "Tests/Experimental/IntervalMap.h: interval_map::assign, at")
p("C152", "Another version of the program that has all the fields gives the data back unchanged",
  "Data is written by a program, read and written by another version of it, and read by the first one: every value is what it was, if the other version has every field of the first one (under the same or a registered new name, in any order, with further fields of types that the first one knows), in nested structures and in the elements of vectors, arrays, rings, deques, optional values, pointers, variants and values of maps, too, and keys and elements of sets have the same type in both. CopyV from an object to an object of the other version and back does the same in memory: it reserves exactly the bytes it writes and fails only if there is no memory for them.",
  "all types of both versions that can be read as each other (C143), all values, all values of the added fields, all comparators",
  "A test goes there and back with one pair of types; whether a value survives depends on the order of the fields of both versions at every level and on what the objects that are read into contain.",
  "Awl/Io/Vts.h: WriteV, ReadV, CopyV; Awl/Io/Reader.h, Awl/Io/Writer.h; Awl/Io/MeasureStream.h; Awl/Io/VectorStream.h")
p("C153", "is_ready and get of a ProcessTask tell and give what the body ended with, the value to one reader",
  "is_ready of a ProcessTask<T> says false until the body of the coroutine ends, true from then on if it returned a value, and throws its exception every time if one left the body; this does not change afterwards, even if the task is moved to another variable or its value was taken. get after that gives the value to the first one who reads it, be it get or a coroutine that awaits the task, a moved-from value to the others, and throws the exception every time; it changes nothing else and resumes nobody. get before the body ended is undefined; both end the program if the task has no coroutine. Programs that mix get with the other operations never use a destroyed coroutine.",
  "all structured programs of any number of coroutines, awaits, moves and gets in any order",
  "Whether a value is there and who has read it depends on the order in which coroutines end and are awaited and moved; a test has one order.",
  "Awl/Coro/ProcessTask.h: is_ready, get, check_handle, rethrow")

p("C154", "Durations and hash values are printed so that the text says what they are",
  "A duration is printed as one number with its unit, or two numbers with a unit and the next smaller one where the second number is less than one of the first unit; the printed time is the duration without what is less than the last unit, and less than a tenth of it is lost, for negative durations, too; a duration of zero is ZERO TIME and no other is. A hash value is printed as 0x and two hexadecimal digits for each byte, so different values have different texts. Printing leaves the stream as it was.",
  "all durations and all hash values of any length, all contents of the stream",
  "The precision and the carry between units depend on the magnitude of the duration, a test prints a few.",
  "Tests/Helpers/FormattingHelpers.h, Tests/Helpers/FormattingHelpers.cpp: PrintDuration, operator <<")
p("C155", "A collection written as the text of an attribute is read back from it, and a text that is no collection is refused",
  "A collection of numbers or characters written as text by the library's formatter is read back as the same collection. Numbers given with white space of any kind and length between them are read, in order. A text with a word in it that is no number of the type is not taken for a collection.",
  "all collections of any length of signed and unsigned integers of any width and of characters, all texts",
  "The number, the length and the values of the elements are unbounded, and what is lost is lost silently; a test tries a few lists.",
  "Awl/Testing/Formatter.h: BasicFormatter of collections, ToString, FromString")
p("C156", "Saving with a mutex while other threads change the value saves a value that was there, and does not hold them up",
  "Threads change a value while they hold a mutex; others save it with that mutex, each to a storage of its own. What Save writes is the value as it was at a moment during the call when no thread was in the middle of a change, so changes completed before the call are in it and none is there in part; if the process stops at any moment, what is loaded afterwards is that or what would have been loaded before the call. Save holds the mutex only while it reads the value: not while it uses the files, and not after it returned or threw; it gives it back without waiting for anybody.",
  "every number of threads that change and save the value, every interleaving of single reads, writes and file operations, exceptions at every step, a crash at every moment",
  "A value saved in part needs a change at the right moment between two reads; tests of Save have one thread.",
  "Awl/Io/AtomicStorage.cpp: AtomicStorage::Save, Awl/OptionalMutex.h, Awl/Io/EuphoricallySerializable.h: MakeShanshot, WriteSnapshot")
p("C157", "Updating the data version by version gives the same as updating it at once",
  "Data written by the first version of a program is read by the second version, written again, and read by the third version. The third version gets the value that it gets when it reads the first version's data directly, with the field names it has registered, wherever the changed structures are (nested, in containers, in maps as values, in variants). This holds if the second version has every field that the first and the third one have, the registered names lead to the same fields either way, elements of sets and keys of maps have the same type in all of them, and new objects of the second and third version agree in the fields they have in common; a field that the second version does not have is lost on the way, and new fields whose initial values differ between the versions come out different.",
  "every three versions of a type that can be read one as the other, every value of the first version, all objects that are read into, with bytes of anything else behind",
  "Tests update sample structures from one version to the next; nobody tests all pairs of releases against all paths between them.",
  "Awl/Io/Vts.h: WriteV, ReadV; Awl/Io/Reader.h, Awl/Io/Writer.h; Awl/Io/FieldMap.h")
p("C158", "A balance kept in decimals is exact, whatever the order of the entries",
  "Decimals with any numbers of digits are added to a balance and subtracted from it, one after the other. If every amount and every balance in between fits the type with the largest number of digits among them, the balance is exactly the sum, and nothing is thrown. If all amounts together fit, the result is the same decimal, bit for bit, in whatever order they are entered, and taking all entries back, in any order, leads to a decimal that is equal to the first balance. The same amount entered in two balances keeps their order. An entry that is refused with an exception leaves the balance as it was. (Without the condition the order matters: the greatest decimal plus 1 minus 1 is -1.)",
  "all lists of entries of any length, all decimals with different numbers of digits, all widths of the type whose powers of ten fit, every order of the entries",
  "Tests add two or three sample decimals; that the digits of a sum do not depend on the order of thousands of entries is not seen there.",
  "Awl/Decimal.h: decimal::operator +=, operator -=, operator +, operator -, operator <, operator ==")
p("C159", "A log is one line for every message, with its level and its text",
  "Messages are logged with debug, trace, info, warning and error, in narrow or wide characters. Read line by line, and each line split at its first two tabs, the log has exactly one record for every call, in the order of the calls, with the level of the called function and the text of the message (which may have tabs), and every call returns normally. A wide message that cannot be encoded is refused with an exception before anything is written.",
  "all sequences of calls, all levels, all messages, all times, all encodings of wide characters, every amount of room on the device",
  "Tests look at the log by eye; line feeds and zeros in messages, another compiler, a full disk and two threads at once do not occur there.",
  "Awl/ConsoleLogger.h: ConsoleLogger::log; Awl/Logger.h: Logger; Awl/LogString.h: LogString; Awl/LogLevel.h: LogLevel; Awl/Time.h: operator << for time_point")
p("C160", "A formula calculated in decimals from texts is exact, and so is its printed result",
  "Numbers are read from texts, and a formula is made of them with +, -, multiply, unary minus, normalize and truncate. If everything that is calculated on the way fits the type (the numbers themselves; operands and results of + and - with the larger number of digits of the two; products with the digits of both factors together), nothing is thrown and the printed result is exactly the value of the formula in arithmetic, with as many digits behind the point as the rules of the operations give. Results of formulas compare as the numbers do, so that formulas which are equal by the laws of arithmetic (for instance a * (b + c) and a * b + a * c) give equal decimals unless the value is zero.",
  "all formulas of any size, all texts, all widths of the type whose powers of ten fit and that have at least three bits for the number of digits",
  "Tests calculate with a few sample decimals; that no combination of operations loses a digit is a statement about all formulas.",
  "Awl/Decimal.h: decimal(string_view), operator +, operator -, multiply, operator - (unary), normalize, truncate, operator <<, operator ==, operator <, operator <=")
p("C161", "A stream in a memory of a fixed size keeps what is written",
  "A stream is made with a size. Whatever bytes and numbers are written into it, with Reset in between, are read from it again, in pieces of any lengths; the places that were not written are zero; writing never goes outside of the memory and reading reports the end of what was written. The three streams with a fixed memory leave the same bytes, and the measuring streams tell their number before.",
  "all sequences of writing, reading and Reset, all sizes, all lengths of pieces, all addresses of the memory, with and without assertions",
  "Tests write exactly as much as was measured before and with numbers wherever they fall; too much data, truncated data and copies of a stream do not occur there.",
  "Tests/Experimental/Io/TrivialMemoryStream.h: TrivialMemoryStream, Write, Read; Tests/Experimental/Io/SampleStreams.h: SwitchMemoryOutputStream, VirtualMemoryOutputStream, VirtualMeasureStream, InlineMeasureStream; Tests/Experimental/Io/StreamUtils.h: StdCopy, PlainCopy")
p("C162", "A space hands out blocks that are arrays of their own",
  "A TrivialSpace is made with a size, and TrivialAllocator takes blocks from it. Until Reset every block is an array of its own: it is zero when it is new, a byte that is stored in it is read from it until it is stored again, whatever is done with the other blocks; the block has an address that is right for its type; GetLength is the sum of the lengths of the blocks and IsFull says whether there is nothing left. When there is too little memory the caller is told. The memory is given back when the space ends.",
  "all programs of allocations, stores, loads and Reset, all sizes, all numbers and lengths of objects, all addresses of the memory, with and without assertions",
  "Tests take blocks of one type that fit; mixtures of types, too many objects, and what delete does with memory from new[] are not seen by them.",
  "Tests/Experimental/TrivialAllocator.h: TrivialSpace::Allocate, TrivialSpace::Reserve, TrivialSpace::Clear, TrivialSpace::Reset, TrivialSpace::GetLength, TrivialSpace::IsFull, TrivialAllocator::allocate")
p("C163", "A Reader can be used for many objects and many streams",
  "After ReadOldPrototypes any number of objects of any types can be read from the stream one after another; each of them is what it would be if it were the only one, and exactly the written bytes are consumed. After Initialize, objects written without tables by the same program are read back. After ClearPrototypes the Reader gives for the next stream, from any other version of the program, what a new Reader gives, also if the stream before ended with an exception.",
  "all sequences of streams with and without tables, all versions and types, all objects, all exceptions in between, with and without assertions",
  "Tests use one Reader for one stream with two structures; Initialize and ClearPrototypes are not called with different versions, and no Reader is used after an exception.",
  "Awl/Io/Reader.h: Initialize, ReadOldPrototypes, AttachMetadata, ClearPrototypes, ReadV, FindProtoMap; Awl/Io/Writer.h: WriteNewPrototypes, WriteV; Tests/VtsTest.cpp: WriteDataV1, ReadDataV2")
p("C164", "The names of a reflected structure are the names of its members",
  "For every list of members given to AWL_REFLECT, get_member_names() has the names of the members in their order, so that the name at an index belongs to the member that for_each_index visits with it; find, find_cstr and find_index give the first position of a name or say that there is none. The members of a structure stored by their names are loaded back into a structure with the same members, in whatever order they are listed there, and the table for version tolerant serialization has the name and the type of each member.",
  "all lists of identifiers, written with and without white space before and behind each comma; all members and values; all pairs of structures; with and without assertions",
  "Tests reflect two structures of three members written in the usual style, and never call find, find_cstr or find_index.",
  "Awl/Reflection.h: MemberList, AWL_REFLECT; Awl/TupleHelpers.h: for_each_index; Awl/Prototype.h: AttachedPrototype; Tests/StringizationTest.cpp: Stringizable_ForEach")
p("C165", "y_combinator makes a functor recursive",
  "The function made by y_combinator<R, Args...>(f) does what a recursive function with the body f does: the same calls, effects, result or exception; it ends if that one ends; it can be called any number of times and does not refer to f.",
  "every functor, with or without members it writes to; all arguments, effects, exceptions and depths of recursion",
  "There is no test of y_combinator at all; and recursion is unbounded.",
  "Awl/Combinator.h: y_combinator")
p("C166", "A loop over a range of integers sees the values from the beginning to the end",
  "A loop over make_int_range(b, e) sees b, b + 1, ... e - 1, each once and in order, and nothing if e is not greater than b; a loop over make_count(n) sees 0 ... n - 1.",
  "every integral type, signed or not, of every width; all values of it, the least and the greatest included",
  "Tests count to small numbers; the limits of the types and ranges that go backwards are not tried.",
  "Awl/IntRange.h: make_int_range, make_count; Awl/Testing/TestMap.cpp: Run; Awl/Io/Reader.h: MapPrototypes")
p("C167", "The traits tell what a value stands for",
  "object_address(x) is the address of the object that x stands for: the object a plain or smart pointer points to, or x itself; is_pointer_v tells which of these it is, remove_pointer_t is the type of that object; so what a foreign set keeps in its groups refers to the object of each element.",
  "all types built of classes, plain pointers, shared and unique pointers, arrays and qualifiers, to any depth; all variables",
  "Tests check two types at compile time.",
  "Awl/TypeTraits.h: remove_pointer, is_plain_pointer, is_smart_pointer_v, is_pointer_v, is_copyable_pointer_v, object_address; Awl/ForeignSet.h: Pointer, ValueToPointer")
p("C168", "A ring forms only pointers into its buffer",
  "Pushing, popping and accessing elements of a ring forms only pointers that the language allows: into the buffer and one behind its end.",
  "all capacities; all histories of pushes, pops and clears; all positions",
  "Forming such a pointer is undefined although nothing is read through it, so all usual compilers do what is expected; a test cannot see it, until a compiler makes use of it.",
  "Awl/Ring.h: address, data_end, last, push_back")
p("C169", "An element of a vector_set may be changed through an iterator",
  "A program may assign to an element through an iterator, if it then asks position_changed and, when the answer is yes, erases the element through the same iterator and inserts it again: the set is then the sorted set with that element replaced (or without it, if there is an equivalent one), for all that follows.",
  "all strict weak orders; all histories of operations and changes; all new values",
  "Tests change no element in place.",
  "Awl/VectorSet.h: iterator, erase(iterator), insert; Awl/RangeUtil.h: position_changed")
p("C170", "Objects linked by shared pointers are written and read back",
  "Objects that refer to each other by std::shared_ptr are read back as they were written: whoever starts at the pointer and follows others sees the same values and null pointers, and pointers to the same object refer to the same object again, whatever the shape of the structure. Reading terminates with a value or an exception, whatever the bytes.",
  "all heaps of objects, all shapes (lists, trees, shared parts, cycles), all sizes of the stack, all bytes",
  "A test writes a structure or two. That of every structure exactly the paths survive, that sharing is lost and doubles the size with every level, and that some bytes overflow any stack, are statements about all of them.",
  "Awl/Io/Rw/PointerReadWrite.h: Read, Write; Awl/Io/Rw/VectorReadWrite.h; Awl/Io/Rw/TuplizableReadWrite.h")
p("C171", "Observers of a set may change it when they are called",
  "An observer may insert into, erase from and clear the set that is calling it: all operations stay defined, and every observer still makes sense of what it is told and arrives at the contents of the set.",
  "all sets, all sequences of subscribers, all observers (arbitrary functions of the calls so far to operations on the set), all depths of nesting",
  "A test has one observer that makes one change. Which observers may make which changes at which moments is a question about all of them, with operations nested in each other.",
  "Awl/ObservableSet.h: insert, erase, clear, NotifyAdded, NotifyRemoving; Awl/Observable.h: Notify")
p("C172", "Mirrors can be moved, and follow the sets they are attached to",
  "In a program with any number of observable sets and mirrors, which are created, attached, moved, assigned and destroyed in any order: a mirror that is attached to a set always has exactly the elements of that set, in its own order; a mirror attached to nothing is empty and may be attached to any set; the mirrors never make an operation of a set fail.",
  "all programs (sequences of operations on any number of sets and mirrors), all element types, all pairs of orders of which the mirror's is at least as fine",
  "Tests attach one mirror to one set. Moving, assigning and destroying sets and mirrors that are attached to each other can be combined in unboundedly many ways.",
  "Awl/MirrorSet.h: mirror_set, reflect; Awl/ObservableSet.h: observable_set; Awl/Observable.h: Observer; Awl/QuickLink.h: basic_movable_link")
p("C173", "A vector_set keeps the order it was given, wherever it is copied and moved",
  "Sets of one type may have comparators that order differently. Copying, moving and assigning sets brings the order along with the elements, every operation works with the order that the set then has, and a set that was moved from is an empty set with the order it had.",
  "all programs with any number of sets, all comparators that are strict weak orders, all element types, all operations and comparisons of sets",
  "A test has a few sets with stateless comparators; comparators with state that travels between sets along arbitrary chains of copies and moves are not sampled.",
  "Awl/VectorSet.h: constructors, operator =, operator ==, UniversalInsert, FindNodeByKey, FindBoundByKey, CopyElements")
p("C174", "Foreign sets may be moved and follow the sets they are constructed from",
  "In a program with several sets and foreign sets of them, where any of them may be moved, assigned and destroyed, a foreign_set that is attached to a set shows exactly the elements of that set by foreign key, one that is attached to nothing is empty, moving a foreign_set moves its groups and its place among the observers, and no operation of a set fails because of the foreign sets attached to it.",
  "all programs with any number of sets and foreign sets, all keys and orders of keys, all histories of operations of the sets, constructions, moves, assignments, destructions and subscriptions",
  "A test moves one foreign set once; chains of moves of both the sources and the foreign sets, interleaved with changes, are unboundedly many.",
  "Awl/ForeignSet.h: foreign_set (constructors, implicit move operations), OnAdded, OnRemoving, OnClearing; Awl/Observable.h: Observer; Awl/ObservableSet.h")
p("C175", "A loop that advances before it handles an element may remove elements from a quick_list",
  "The iterators of a quick_list walk over its elements in order, in both directions, and over the end back to the first; an iterator stays at its element whatever happens as long as the element is finally in some list; and a loop that advances its iterator before it handles the current element may exclude, move to another list or (if its destructor takes it out of the list, as that of an observer does) destroy any of the elements it meets: it visits every element exactly once, in order, and exactly the kept ones remain.",
  "all histories of any number of lists and elements, all lists, both directions, all choices of what is done with each element, all bodies that leave the next element in the list",
  "Which of the elements are removed, and from which place, are exponentially many combinations; a wrong link shows only in a later step.",
  "Awl/DoubleIterator.h: double_iterator; Awl/QuickList.h: begin, end, rbegin, rend; the loop of Awl/Observable.h: Notify")
p("C176", "An update queue leaves no message and no function behind",
  "Whatever was pushed, cleared and applied, also by the updates themselves and also if updates or copies of functions throw, destroying the queue deletes every message it has allocated and destroys every copy of a function it has made exactly once, its destructor follows no link of a message that is deleted already, and before that every copy is held by exactly one message or was destroyed exactly once.",
  "all histories of Push, ClearPending and the steps of ApplyUpdates, all places and kinds of exceptions, any number of messages",
  "Leaks and double deletions depend on the order of calls and on the list each block happens to be in; a test sees them only in the histories it runs.",
  "Awl/UpdateQueue.h: Message, ~MessageQueue, Push, ClearPending, ApplyUpdates, PrepareData, FreeData; Awl/QuickList.h; Awl/DoubleIterator.h")
p("C177", "Functions on tuples visit every element once and in order",
  "for_each and for_each_index call the function for every element of a tuple once, from the first to the last, with its position, and stop at the first call that throws; tuple_to_array does the same and puts the result for each element at its position; transform_tuple calls the function for every element once and puts the results at the positions of the elements, in whatever order the compiler evaluates the calls, and its result is that of the calls in order; map_types compiles exactly if each type of the first list (without a reference) occurs exactly once in the second and gives its position there.",
  "all tuples, all functions with any state and any exceptions, all orders of evaluation, all lists of types",
  "A test is compiled with one compiler, which evaluates arguments in one order, for a few tuples and for functions without a state.",
  "Awl/TupleHelpers.h: for_each, for_each_index, transform_tuple, tuple_to_array, tuple_cast, find_tuple_type_v, find_variant_type_v, map_types_t2t, map_types_t2v")
p("C178", "Visual C++ converts texts like the other compilers, but says why it cannot",
  "With Visual C++ the conversion of a text up to its first zero gives exactly what it gives with the other compilers: the bytes of its characters, or the characters of its bytes, and converting back gives the same text; exactly if the text cannot be converted string_encoding_error is thrown, and its number is EILSEQ; no text calls the handler for invalid parameters or leads to undefined behaviour.",
  "all texts, all locales whose encoding has no shift states",
  "Quantifies over all texts and encodings; the code of Visual C++ is not compiled where the other one is tested.",
  "Awl/String.h: EncodeString, DecodeString, string_encoding_error (Visual C++)")
p("C179", "Decimals over Boost integers behave like those over built-in integers",
  "A program that computes with decimals over a Boost unsigned integer of w bits sees the same numbers, texts, comparisons, bits and exceptions as over a built-in integer of w bits, if it does nothing undefined there; over a Boost integer it never does anything undefined, unless it converts an empty text; sums that fit are exact, products that do not fit throw, and numeric_limits bounds all decimals of the type.",
  "all programs (sequences of construction, conversion from and to text, arithmetic, rescaling, rounding, normalization and comparison), all widths and numbers of digit bits",
  "Quantifies over all programs and widths; the tests try a few numbers over uint128_t.",
  "Awl/Decimal.h: decimal; Awl/MultiprecisionDecimalData.h: MultiprecisionDecimalData; Awl/DecimalConstants.h: DecimalConstants")
p("C180", "Storages can be moved, and their files move with them",
  "Constructing a storage from another one, assigning it from another one and swapping two storages moves the open files with them: what is saved and loaded afterwards goes to the files of the storage that was moved, the other one is not open and can be opened again, the files an assigned storage had open are closed, messages go to the logger a variable was constructed with (or moved from), and assigning a storage to itself changes nothing; every descriptor that is open belongs to exactly one storage, none is closed twice, and none is open when all storages are closed or destroyed.",
  "all programs with any number of storages (construction, Open with and without success, moves, assignments, swaps, Save, Load, Close, destruction), all contents of the files, AtomicStorage and OptionalStorage",
  "Quantifies over all programs; a descriptor that is closed twice does harm only if its number has been given to another file meanwhile.",
  "Awl/Io/AtomicStorage.h: AtomicStorage (move constructor, operator =, Open, Close); Awl/Io/OptionalStorage.h: OptionalStorage; Platforms/Posix/Awl/Io/UniqueHandle.h: UniqueHandle")
p("C181", "Types that have got other names are read if the program says so",
  "A program whose types have other names than in the version that wrote the data passes the old and the new names to ReadOldPrototypes. It then reads exactly what it would read without them if the types had had the new names when the data was written: the same values, also if fields were added, removed, reordered or renamed, and the same exceptions, whatever follows the tables. Every name is replaced once, so that names can be exchanged. Containers of a renamed type need not be listed. Data of the new version is read with the same names if none of its own names is replaced, and a type that is still unknown is reported before anything is read.",
  "all maps of names, all tables and names of the writing and the reading program that fit into memory, all bytes after the tables, all objects",
  "Quantifies over all pairs of versions, maps and streams; no test of the library passes a map.",
  "Awl/Io/Reader.h: ReadOldPrototypes (type_map), AttachMetadata; Awl/Mp/TypeDescriptor.h")
p("C182", "Exceptions of reading say what is wrong with the data",
  "If data ends early, the text of the exception has the number of bytes asked for and the number of bytes there were. If a field of the data has a type that the program does not have, or whose type has changed, the text names the field and the types, and a storage logs it as a type mismatch. If a field of the data has been removed from the program and the reader does not allow this, the text names the first such field. The texts of two exceptions of these kinds are different unless kind, names and numbers are the same.",
  "all lengths of data, all tables of the data and of the program, all names and numbers, all functions that read or skip fields",
  "Quantifies over all tables and numbers; the tests catch the exceptions by class and never look at their texts.",
  "Awl/Io/IoException.h; Awl/Io/Rw/ReadRaw.h; Awl/Io/Reader.h: AttachMetadata, ReadV, MapPrototypes, CheckTypesCompatible; Awl/Io/AtomicStorage.cpp: LoadFromFile")
p("C183", "Decimals and floats",
  "Converting a decimal to float gives the float that is nearest to its value as a double, and the value itself if a float can hold it. The relative error is at most 2^-22. Converting keeps the order of decimals. A decimal made from the float by rounding to the same number of digits is the decimal.",
  "all well-formed decimals over built-in integers with at most 22 digits after the point",
  "Quantifies over all mantissas and numbers of digits and needs the rounding of two floating point formats; the tests convert a few short decimals.",
  "Awl/Decimal.h: cast, make_rounded, operator =")
p("C184", "An object in a Destructible is destroyed by Destroy and by nothing else",
  "Defining a Destructible constructs its object, or throws what the constructor throws and leaves nothing. Access gives that object until Destroy, which runs its destructor; access and Destroy afterwards are undefined. Leaving the scope destroys nothing, so an object without Destroy is never destroyed, and one with a scope guard that calls Destroy is destroyed exactly once. Copies have objects of their own.",
  "all programs that define, use, destroy, copy and assign any number of variables and leave their scopes in any order",
  "Quantifies over programs; the test has one variable with one guard and never copies it.",
  "Tests/Experimental/Destructible.h: Destructible")
p("C185", "Damage to a file of settings is noticed",
  "If a file of settings in a hashed format is cut off or bytes of it are changed, Load says that it could not load and leaves the value as it was; if only the backup is damaged the value comes from the master, and if the master is damaged while there is a backup, from the backup. With CRC-64 every change of up to eight consecutive bytes of the data, or of a stored hash, is noticed. A value that was not saved is never loaded.",
  "all values, formats, hashes and block sizes; all positions and all changed bytes",
  "Quantifies over all changes of all files; the tests damage a few files at a few places.",
  "Awl/Io/HashingSerializable.h; Awl/Io/HashStream.h; Awl/Io/AtomicStorage.cpp: Load, LoadFromFile; Awl/Crypto/Crc64.cpp")
p("C186", "A file of settings that cannot be read does not stand in the way of the other",
  "If one of the two files of a storage holds a value, Load succeeds whatever is in the other file: it gives that value, or the value the backup holds, and throws nothing. Load never changes the master unless the backup holds a value, however often the program is started.",
  "all contents of both files, all formats, any number of starts of the program",
  "Quantifies over all contents a crash or a damaged disk can leave in a file.",
  "Awl/Io/AtomicStorage.cpp: Load, LoadFromFile; Awl/Io/Rw/VectorReadWrite.h; Awl/Io/Rw/StringReadWrite.h")
p("C187", "One stop request ends the sleep of all threads",
  "Any number of threads sleep with tokens of one stop state and any number of threads request the stop. One request returns true, and when it has, no thread is blocked in sleep_for any more; each call that is in progress returns after a few steps of its thread, whatever the others do. The request waits for none of the threads. No call returns before its duration has passed unless a stop was requested, and no callback uses a condition variable that is destroyed.",
  "all numbers of sleeping and of requesting threads, all durations, all interleavings, spurious wake-ups",
  "Quantifies over all interleavings of any number of threads; the tests sleep in one thread.",
  "Awl/Sleep.h: sleep_for; Extras/JThread/JThreadExtras/stop_token.hpp: request_stop, stop_callback")
p("C188", "The text of an optional value tells whether there is a value",
  "Written to a stream, an optional value that is there is shown as the value itself and one that is not as the word empty, with the width and the fill character of the stream. Optional values that differ have different texts.",
  "all streams, widths and fill characters; all strings and all 128 bit numbers",
  "Quantifies over all values and streams.",
  "Awl/String.h: operator << for std::optional")
p("C189", "The message about a wrong enumerator tells what was wrong",
  "A number that is no enumerator and a text that is the name of none are refused by the conversions of sequential enumerations with an exception, whose message has the name of the enumeration as a word and the number, in decimal digits, or the text that was given; so two wrong inputs have different messages.",
  "all enumerations, all numbers and all texts, narrow and wide programs",
  "Quantifies over all wrong inputs; the tests look at none of the messages.",
  "Awl/EnumTraits.h: enum_to_index, enum_from_index, validate_enum, enum_from_string; Awl/Io/Rw/EnumReadWrite.h: ValidateEnum")
# NEXT
out = os.path.join(os.path.dirname(__file__), "..", "properties.jsonl")
with open(out, "w") as f:
    for x in P: f.write(json.dumps(x, ensure_ascii=False) + "\n")
print(len(P))
