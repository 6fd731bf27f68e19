{"id": "C01", "title": "A ring behaves as a bounded deque", "statement": "Starting from a ring constructed with a positive capacity, after any sequence of push_back, push_front, pop_back, pop_front, clear and reserve calls (pops only when not empty, reserve with a positive argument) the ring shows exactly the sequence a bounded double-ended queue would hold: a push at one end of a full ring discards the element at the other end, and front, back, size, empty, full and element i agree with that sequence. No call touches memory outside the buffer or an unconstructed slot.", "quantifier": "every capacity, element type, finite history of operations and index below the size", "why_tests_cant": "The head position and the element count wrap around the capacity independently; tests exercise a few capacities and histories, not every wrap-around combination.", "anchors": ["Awl/Ring.h: ring::push_back, push_front, pop_back, pop_front, clear, reserve, front, back, operator[], size, empty, full"]}
{"id": "C02", "title": "Reserve keeps the newest elements in order", "statement": "reserve(n) leaves a ring with capacity n whose contents are the last min(n, size) elements of the old contents in the same order.", "quantifier": "every ring state reachable through the API and every n > 0", "why_tests_cant": "Depends on where the data wraps in the old buffer and on n relative to the size; there are unboundedly many combinations.", "anchors": ["Awl/Ring.h: ring::reserve, copy"]}
{"id": "C03", "title": "Ring at() rejects exactly the bad indexes", "statement": "at(i) returns element i for every i < size() and throws std::out_of_range for every i >= size().", "quantifier": "every ring state and index", "why_tests_cant": "Needs every size and index; the boundary case i = size() is the one that matters.", "anchors": ["Awl/Ring.h: ring::at, check_index"]}
{"id": "C04", "title": "Ring copies are faithful and equality is sequence equality", "statement": "A copy constructed or copy assigned ring holds the same sequence as the source (and the source is unchanged), two rings compare equal exactly when their sequences are equal regardless of capacity and of where the data is placed in the buffer, and iterating from begin() to end() visits the sequence in order, rbegin() to rend() in reverse.", "quantifier": "every pair of ring states", "why_tests_cant": "The physical layouts (head offset, capacity) of equal rings differ in unboundedly many ways.", "anchors": ["Awl/Ring.h: ring copy constructor, copy assignment, operator==, iterator"]}
{"id": "C05", "title": "vector_set is a sorted set", "statement": "After any history of insert, emplace, erase and clear the set contains exactly the keys that a mathematical set would contain; insert reports whether the key was new and points to the stored element; erase reports whether the key was present; find, contains, lower_bound and upper_bound agree with that set; size() is its cardinality.", "quantifier": "every strict weak order, every history of operations and every key", "why_tests_cant": "Each history gives a different tree shape; rotations and removal of a node with two children have many cases that depend on the whole history.", "anchors": ["Awl/VectorSet.h: vector_set::insert, emplace, erase, clear, find, contains, lower_bound, upper_bound, size"]}
{"id": "C06", "title": "vector_set indexes are ranks", "statement": "After any history, s[i] and s.at(i) are the i-th smallest element for i < size(), at(i) throws for i >= size(), index_of(find(k)) and index_of(k) equal the number of elements smaller than k when k is present, find2 returns the element together with that index, and index_of(k) throws when k is absent.", "quantifier": "every history, index and key", "why_tests_cant": "The per-node descendant counters must be right after every rotation and removal of every history.", "anchors": ["Awl/VectorSet.h: operator[], at, index_of, find2, find_by_index, FindNodeByIndex, IndexOfNode, FindIndexByKey, UpdateCount"]}
{"id": "C07", "title": "Iterating a vector_set visits the elements in order", "statement": "After any history, iterating forward visits the elements in strictly increasing order, each exactly once; iterating backward gives the reverse; incrementing the iterator of element i gives element i+1.", "quantifier": "every history of operations", "why_tests_cant": "The list links and the tree are two structures updated separately; their agreement depends on every history.", "anchors": ["Awl/VectorSet.h: begin, end, rbegin, rend, InsertNode, RemoveNode, GetSuccessor, GetPredecessor; Awl/QuickList.h"]}
{"id": "C08", "title": "vector_set insertion keeps the tree balanced", "statement": "For a set built by insertions only, the search path to any element has length at most 2*log2(n+1), so find, insert and index look-ups take O(log n) steps.", "quantifier": "every sequence of insertions in any order", "why_tests_cant": "A complexity bound over all insertion orders.", "anchors": ["Awl/VectorSet.h: BalanceAfterInsert, RotateLeft, RotateRight; README.md item 3"]}
{"id": "C09", "title": "vector_set look-up stays logarithmic after removals", "statement": "After any history of insertions and removals, the search path to any element has length at most 2*log2(n+1) where n is the current size.", "quantifier": "every history of insertions and removals", "why_tests_cant": "A complexity bound over all histories; random tests do not find adversarial removal patterns.", "anchors": ["Awl/VectorSet.h: RemoveNode, BalanceAfterRemove; README.md item 3"]}
{"id": "C10", "title": "vector_set never follows a null link", "statement": "No insert, erase or look-up on any set reachable through the public API dereferences a null parent, sibling or child pointer in the rebalancing code.", "quantifier": "every history of operations", "why_tests_cant": "The rebalancing code relies on siblings and grandparents existing; whether they exist depends on the whole history.", "anchors": ["Awl/VectorSet.h: BalanceAfterInsert, BalanceAfterRemove, RotateLeft, RotateRight, RemoveNode"]}
{"id": "C11", "title": "Assigning a container keeps the value", "statement": "After a = b (vector_set or ring) the container a equals the value b had before the assignment, and for copy assignment b is unchanged; this includes the case where a and b are the same object.", "quantifier": "every pair of container states, including aliasing", "why_tests_cant": "Aliasing and every state.", "anchors": ["Awl/VectorSet.h: vector_set::operator=; Awl/Ring.h: ring::operator="]}
{"id": "C12", "title": "quick_list is a sequence in both directions", "statement": "After any history of push_front, push_back, pop_front, pop_back, insert, erase, clear and splice calls on a family of lists, each list's forward traversal yields the sequence a mathematical list would hold, the backward traversal yields its reverse, and no list is disturbed by operations on other lists.", "quantifier": "every finite family of lists, every history of operations on elements that are not in a list when inserted", "why_tests_cant": "Link surgery correctness is a statement about all heaps, not about sample lists.", "anchors": ["Awl/QuickList.h, Awl/QuickLink.h, Awl/SingleList.h, Awl/SingleLink.h"]}
{"id": "C13", "title": "Removing an element needs no reference to its list", "statement": "exclude on an element that is in some list removes exactly that element from exactly that list, leaves it marked as not included, and changes no other list; safe_exclude does the same and is a no-op on an element in no list, so calling it twice equals calling it once.", "quantifier": "every heap of lists and every element", "why_tests_cant": "Quantifies over all heaps of lists.", "anchors": ["Awl/QuickLink.h: exclude, safe_exclude, included; Awl/QuickList.h"]}
{"id": "C14", "title": "Moving a linked element keeps its place", "statement": "Move-constructing or move-assigning a movable link puts the new object at the position of the old one in the same list, removes the target from the list it was in before, and leaves the source in no list.", "quantifier": "every list, position and pair of elements", "why_tests_cant": "Quantifies over all heaps; aliasing of source, target and neighbours matters.", "anchors": ["Awl/QuickLink.h: TypedQuickLink / MovableLink move constructor and move assignment; Awl/Observable.h: Observer"]}
{"id": "C15", "title": "Splice moves whole lists in order", "statement": "push_back(list&&)/push_front(list&&)/splice moves all elements of the source list to the destination keeping their order, leaves the source empty, and concatenates in the documented position; attach on an empty list equals move.", "quantifier": "every pair of different lists", "why_tests_cant": "Quantifies over all heaps, including empty source and destination.", "anchors": ["Awl/QuickList.h: push_front, push_back, splice, attach"]}
{"id": "C16", "title": "Every observer is notified once, in subscription order", "statement": "When Notify is called and the callbacks only unsubscribe the observer being called (or destroy it), every observer subscribed at the start is called exactly once, in subscription order, and no call is made to an observer that is not subscribed.", "quantifier": "every subscription list and every behaviour of callbacks that only touches the called observer's own subscription", "why_tests_cant": "Quantifies over all callback behaviours and all subscription lists.", "anchors": ["Awl/Observable.h: Observable::Notify, NotifyWhileTrue, Subscribe, Unsubscribe"]}
{"id": "C17", "title": "Notify is safe whatever the callbacks do", "statement": "Notify never follows a link of an observer that is no longer subscribed, whatever observers are subscribed, unsubscribed or destroyed from inside the callbacks.", "quantifier": "every callback behaviour", "why_tests_cant": "Quantifies over all callback behaviours (re-entrancy).", "anchors": ["Awl/Observable.h: Observable::Notify, NotifyWhileTrue"]}
{"id": "C18", "title": "Destroying either side ends the subscription", "statement": "After an observable or an observer is destroyed no remaining object links to it: the remaining observers report that they are not subscribed, and the remaining observables do not call the destroyed observer.", "quantifier": "every history of subscribe, unsubscribe, move and destroy operations", "why_tests_cant": "Lifetime histories are unbounded.", "anchors": ["Awl/Observable.h: ~Observable, ~Observer, ClearObservers; Awl/QuickLink.h"]}
{"id": "C19", "title": "An observable_set's notifications describe its contents", "statement": "Replaying the notifications of an observable_set (added, removing, clearing) on a set that starts equal to it reproduces its contents after every operation; a notification is sent exactly when the contents change.", "quantifier": "every history of insert, emplace, erase, clear on the set", "why_tests_cant": "Quantifies over all histories.", "anchors": ["Awl/ObservableSet.h: insert, emplace, erase, clear"]}
{"id": "C20", "title": "A mirror_set stays equal to its source", "statement": "A mirror_set attached to a source (an observable_set or another mirror_set) contains exactly the elements of the source, in its own order, after any history of operations on the source; no handler throws as long as the mirror's comparator distinguishes the elements that the source's comparator distinguishes; its own subscribers are sent events that lead to the same contents, so chains of mirrors stay equal too.", "quantifier": "every history of operations on the source (including moves and migration), every chain of mirrors", "why_tests_cant": "Quantifies over all histories and all pairs of orders.", "anchors": ["Awl/MirrorSet.h: reflect, OnAdded, OnRemoving, OnClearing; Awl/ObservableSet.h"]}
{"id": "C21", "title": "A foreign_set groups by foreign key", "statement": "After any history of operations on the source set, the foreign set has a group for a foreign key exactly when some source element has that key, and the group contains exactly those elements.", "quantifier": "every history of operations on the source set", "why_tests_cant": "Quantifies over all histories.", "anchors": ["Awl/ForeignSet.h; Awl/ObservableSet.h"]}
{"id": "C22", "title": "Every pushed update is applied exactly once, in order", "statement": "With any number of producer threads pushing and one consumer applying, every pushed update is applied exactly once by a later ApplyUpdates (if no update throws and pending updates are not cleared), and updates are applied in the order in which the pushes happened; in particular each producer's updates are applied in program order.", "quantifier": "every number of threads and every interleaving of pushes, swaps and applications", "why_tests_cant": "Quantifies over all schedules.", "anchors": ["Awl/UpdateQueue.h: Push, ApplyUpdates"]}
{"id": "C23", "title": "Updates pushed while applying wait for the next batch", "statement": "An update pushed (by any thread, including from inside an update) while a batch is being applied is not executed in that batch and is executed in a later one; a batch always terminates when its own updates terminate.", "quantifier": "every interleaving, every update behaviour", "why_tests_cant": "Quantifies over all schedules and update behaviours.", "anchors": ["Awl/UpdateQueue.h: Push, ApplyUpdates"]}
{"id": "C24", "title": "A failing update leaves the queue usable", "statement": "If an update throws out of ApplyUpdates, the exception reaches the caller, no update that was already applied is applied again, the rest of that batch is discarded (as documented), and every update pushed during or after the failing batch is applied exactly once by later ApplyUpdates calls, in order.", "quantifier": "every batch, every failing position, every interleaving of pushes", "why_tests_cant": "Quantifies over all batches, failure points and schedules.", "anchors": ["Awl/UpdateQueue.h: ApplyUpdates, FreeData"]}
{"id": "C25", "title": "Decimal addition and subtraction are exact or throw", "statement": "x + y and x - y either throw or return a decimal whose numeric value is exactly the sum or difference of the numeric values.", "quantifier": "every pair of representable decimals of every mantissa width and exponent width", "why_tests_cant": "2^128 pairs per type; the wrap-around happens only at large mantissas.", "anchors": ["Awl/Decimal.h: operator+, operator-, align, set_mantissa, extend_self"]}
{"id": "C26", "title": "Decimal comparison is the numeric order", "statement": "x < y, x == y and x > y hold exactly when the numeric values compare so; exactly one of the three holds; comparison never throws.", "quantifier": "every pair of decimals", "why_tests_cant": "2^128 pairs; the interesting ones have different exponents and no common scale, or a negative zero.", "anchors": ["Awl/Decimal.h: compare, compare_positive, operator<, operator=="]}
{"id": "C27", "title": "Decimal text round trip", "statement": "Printing a decimal and parsing the text gives back a decimal with the same numeric value and sign, for every decimal; the printed text is the plain decimal notation of the value, with exactly as many digits after the point as the decimal has.", "quantifier": "every decimal of every width", "why_tests_cant": "2^64 values per type.", "anchors": ["Awl/Decimal.h: operator<<, from_string, parse_int, normalize"]}
{"id": "C28", "title": "Parsing accepts exactly decimal literals with the right value", "statement": "from_string(t) either throws or returns the decimal whose numeric value is the value denoted by t, an optional sign, at least one digit and at most one point among the digits; it throws on every other text.", "quantifier": "every string", "why_tests_cant": "Quantifies over all strings.", "anchors": ["Awl/Decimal.h: from_string, parse_int, symbol_to_digit"]}
{"id": "C29", "title": "Changing the number of digits is exact or truncates by less than one unit", "statement": "extend and normalize do not change the numeric value (extend throws if impossible); truncate(n) and rescale give the value with n digits that is nearest toward zero; floor(n) is the greatest and ceil(n) the least value with n digits that is not above / not below the value.", "quantifier": "every decimal and every digit count", "why_tests_cant": "2^64 values per type times all digit counts; negative values and non-multiples matter.", "anchors": ["Awl/Decimal.h: rescale, extend, truncate, normalize, floor, ceil"]}
{"id": "C30", "title": "Decimal binary representation round trip", "statement": "Packing sign, digit count and mantissa into the bit representation and unpacking returns the same three fields for all in-range fields, and distinct field triples have distinct representations.", "quantifier": "every triple of in-range fields and every width", "why_tests_cant": "All 2^64 representations.", "anchors": ["Awl/DecimalData.h; Awl/Decimal.h: to_bits, from_bits; Awl/Mp/MultiprecisionDecimalData.h"]}
{"id": "C31", "title": "What is written can be read back", "statement": "For every serialisable type (numbers, bool, enums, strings, arrays, vectors, packed bool vectors, maps, sets, optionals, variants, nested reflected structures) reading the bytes produced by writing a value into a fresh object gives the same value and consumes exactly those bytes, whatever follows.", "quantifier": "every type built from the supported constructors, every value, every continuation of the stream", "why_tests_cant": "Quantifies over all types and values.", "anchors": ["Awl/Io/Rw/*.h: Read, Write"]}
{"id": "C32", "title": "A truncated value is always reported", "statement": "Reading any proper prefix of the bytes of a value throws an end-of-file exception; it never returns a value.", "quantifier": "every type, value and cut position", "why_tests_cant": "Quantifies over all types, values and positions.", "anchors": ["Awl/Io/Rw/*.h; Awl/Io/VectorStream.h; Awl/Io/ReadRaw"]}
{"id": "C33", "title": "Reading replaces the previous value", "statement": "Reading into an object gives the written value whatever the object held before.", "quantifier": "every type, written value and previous value", "why_tests_cant": "Quantifies over pairs of values.", "anchors": ["Awl/Io/Rw/OptionalReadWrite.h, PointerReadWrite.h, CollectionReadWrite.h, StringReadWrite.h, VectorReadWrite.h, VariantReadWrite.h"]}
{"id": "C34", "title": "Big-endian integer conversion round trip", "statement": "to_array followed by from_array returns the same integer, from_array followed by to_array returns the same bytes, and the byte order is most significant first, for every integer width.", "quantifier": "every width and every value", "why_tests_cant": "2^64 values.", "anchors": ["Awl/Int2Array.h: to_array, from_array"]}
{"id": "C35", "title": "Version tolerant round trip between equal versions", "statement": "Reading a version tolerant stream with the same type definitions gives the written value.", "quantifier": "every set of structure types and every value", "why_tests_cant": "Quantifies over all type definitions.", "anchors": ["Awl/Io/Reader.h, Awl/Io/Writer.h, Awl/Io/Vts.h"]}
{"id": "C36", "title": "Version tolerant reading maps fields by name", "statement": "When fields were added, removed, reordered or renamed (with the renaming registered) between the writing and the reading version, every field that exists in both versions gets the written value, every added field keeps the value it had before reading, removed fields are skipped, and reading consumes exactly the written bytes.", "quantifier": "every pair of versions of every structure, nested to any depth, and every value", "why_tests_cant": "Quantifies over pairs of type definitions and values.", "anchors": ["Awl/Io/Reader.h: ReadV, SkipField, SkipStruct, FindProtoMap, MapPrototypes; Awl/Io/FieldMap.h"]}
{"id": "C37", "title": "Incompatible field types are reported", "statement": "If a field with the same name has a different type in the two versions, reading throws a type mismatch exception the first time and every later time the structure is read; it never stores a value of the wrong type.", "quantifier": "every pair of versions and any number of reads", "why_tests_cant": "Quantifies over pairs of type definitions and histories of reads (a failed read must not change the result of the next one).", "anchors": ["Awl/Io/Reader.h: FindProtoMap, MapPrototypes, CheckTypesCompatible"]}
{"id": "C38", "title": "A hashed stream is transparent", "statement": "Bytes written to a hashing output stream in any pieces and then read through a hashing input stream with the same hash and block size in any pieces give the same bytes and then the end of the stream, with no corruption reported.", "quantifier": "every byte sequence, block size larger than the hash, hash function and division into writes and reads", "why_tests_cant": "Quantifies over all chunkings, block sizes and contents.", "anchors": ["Awl/Io/HashStream.h: HashOutputStream, HashInputStream"]}
{"id": "C39", "title": "A truncated hashed stream never yields wrong data", "statement": "Cutting a hashed stream at any byte and reading it yields a prefix of the original data followed by either the end of the stream or a corruption exception, for any hash whatsoever; if anything was cut off, a proper prefix.", "quantifier": "every content, block size, hash function and cut position", "why_tests_cant": "Quantifies over all contents and cut positions.", "anchors": ["Awl/Io/HashStream.h: HashInputStream"]}
{"id": "C40", "title": "A modified block is reported unless the hashes collide", "statement": "If the bytes of a hashed stream are changed in place, then reading returns the original data, or throws a corruption exception, or some changed block has a payload/hash pair that is itself consistent; with CRC-64, any change confined to at most 8 consecutive bytes of a block's payload or to its stored hash is always reported.", "quantifier": "every content and every change of bounded extent", "why_tests_cant": "Quantifies over all contents and all error patterns.", "anchors": ["Awl/Io/HashStream.h: HashInputStream::PeekBuf; Awl/Crypto/Crc64.h: Calc"]}
{"id": "C41", "title": "CRC-64 table and algorithm implement the polynomial division", "statement": "The table driven CRC-64 equals the bit by bit reflected CRC with the Jones polynomial for every seed and every byte sequence; processing a concatenation equals continuing from the intermediate value.", "quantifier": "every seed and byte sequence", "why_tests_cant": "Quantifies over all messages and seeds; a single wrong table entry escapes most tests.", "anchors": ["Awl/Crypto/Crc64.h: Crc64::operator(), Calc, crc64_tab"]}
{"id": "C42", "title": "Buffered and memory streams are transparent", "statement": "Reading through a buffered input stream in any pieces returns exactly the bytes of the underlying stream in order and ends exactly when it ends; a vector stream is a FIFO of bytes.", "quantifier": "every content, buffer size and division into reads and writes", "why_tests_cant": "Quantifies over all chunkings.", "anchors": ["Awl/Io/BufferedStream.h, Awl/Io/VectorStream.h"]}
{"id": "C43", "title": "Saving is atomic under crashes", "statement": "If the process or machine stops at any point of Save on a storage whose last Save or Load completed, a later Load succeeds and gives either the value saved before or the value being saved.", "quantifier": "every pair of values, every serialisation format whose proper prefixes do not parse, every crash point including inside a write", "why_tests_cant": "Quantifies over all crash points and values.", "anchors": ["Awl/Io/AtomicStorage.h, Awl/Io/AtomicStorage.cpp: Save, Load"]}
{"id": "C44", "title": "Recovery is idempotent", "statement": "If Load itself is interrupted at any point, any number of times, the Load that finally completes gives the same value that an uninterrupted Load would have given.", "quantifier": "every storage state left by an interrupted Save, every number of interruptions and every crash point", "why_tests_cant": "Quantifies over all sequences of crash points.", "anchors": ["Awl/Io/AtomicStorage.cpp: Load"]}
{"id": "C45", "title": "A storage survives any sequence of failed saves", "statement": "After any sequence of Saves of which some were interrupted or failed with an I/O error, without Load in between, Load gives one of the values passed to Save since (and including) the last completed one.", "quantifier": "every sequence of saves with crash points", "why_tests_cant": "Quantifies over all multi-failure histories.", "anchors": ["Awl/Io/AtomicStorage.cpp: Save, Load; Awl/Io/OptionalStorage.cpp: Save"]}
{"id": "C46", "title": "A scope guard runs its action exactly once", "statement": "For every way of using a scope guard, release, moving it to another guard and destroying both, the final action runs exactly once if the guard was not released and zero times if it was.", "quantifier": "every history of release, move construction, move assignment and destruction", "why_tests_cant": "Quantifies over all histories.", "anchors": ["Awl/ScopeGuard.h"]}
{"id": "C47", "title": "Composite comparators are strict weak orders", "statement": "A composite comparator built from strict weak orders is itself a strict weak order, and it is the lexicographic order of its components; reverse comparators and key comparators of strict weak orders are strict weak orders, and reversing twice gives the original order.", "quantifier": "every list of comparators and every triple of values", "why_tests_cant": "Order laws quantify over all triples of values.", "anchors": ["Awl/CompositeCompare.h, Awl/TransparentCompositeCompare.h, Awl/ReverseCompare.h, Awl/KeyCompare.h"]}
{"id": "C48", "title": "Heterogeneous look-up agrees with the element order", "statement": "For a transparent comparator (by key, reversed, or composite), comparing an element with a key is consistent with the element order: in any sorted sequence the elements that compare less than a key come first, then the elements equivalent to it, as a contiguous range, then those that compare greater; an element is equivalent to the key extracted from it.", "quantifier": "every sorted sequence and every key", "why_tests_cant": "Quantifies over all sequences and keys.", "anchors": ["Awl/TransparentCompositeCompare.h, Awl/KeyCompare.h"]}
{"id": "C49", "title": "position_changed detects exactly a broken order", "statement": "If a sequence was strictly sorted and one element was modified, position_changed for that element returns false exactly when the sequence is still strictly sorted.", "quantifier": "every sequence, position and new value", "why_tests_cant": "Quantifies over all sequences.", "anchors": ["Awl/RangeUtil.h: position_changed"]}
{"id": "C50", "title": "Enum text round trip", "statement": "For an enumeration whose element names are distinct identifiers, converting an element to text and back gives the element, converting any other text fails, and the list of names parsed from the macro text is exactly the list of names in order.", "quantifier": "every enumeration (list of names) and every text", "why_tests_cant": "Quantifies over all enumerations.", "anchors": ["Awl/EnumTraits.h, Awl/Reflection.h: MemberList"]}
{"id": "C51", "title": "An interval map is a function from keys to values", "statement": "After any history of assign([a, b], v) the map contains a key exactly when the key was in some assigned interval, and at(key) is the value of the most recent interval that covers the key.", "quantifier": "every history of assignments with a <= b and every key", "why_tests_cant": "Intervals overlap, nest, touch and coincide in unboundedly many ways.", "anchors": ["Tests/Experimental/IntervalMap.h: interval_map::assign, at, contains"]}
{"id": "C52", "title": "A bitmap is a set of enum elements", "statement": "After any sequence of set, reset, and bitwise operations the bitmap holds exactly the elements a mathematical set would hold, and operations on one element do not affect the others.", "quantifier": "every enumeration size, history and element", "why_tests_cant": "Quantifies over all sizes (more than 64 elements) and histories.", "anchors": ["Awl/BitMap.h"]}
{"id": "C53", "title": "A pool never hands out an object that is in use", "statement": "An object obtained from a pool is not handed out again while a shared pointer to it exists, it is returned to the pool when the last pointer goes away, and destroying the pool while objects are in use does not free them prematurely nor leak them.", "quantifier": "every history of make, share, drop and pool destruction", "why_tests_cant": "Quantifies over all histories.", "anchors": ["Awl/ObjectPool.h, Awl/PooledObject.h"]}
{"id": "C54", "title": "An aggregator calls its handler exactly once", "statement": "The handler of an aggregator is called exactly once, with the values set, when the last missing value is set, and never after cancellation.", "quantifier": "every order of set calls, repeated set calls and cancellation points", "why_tests_cant": "Quantifies over all orders and repetitions.", "anchors": ["Awl/Aggregator.h"]}
{"id": "C55", "title": "Timers resume in deadline order", "statement": "The time queue resumes the coroutines whose time has come in the order of their deadlines, and a coroutine is not delayed by one with a later deadline.", "quantifier": "every set of deadlines and every order of scheduling", "why_tests_cant": "Quantifies over all sets of deadlines.", "anchors": ["Awl/Testing/TimeQueue.h"]}
{"id": "C56", "title": "Stop is requested exactly once and callbacks run once", "statement": "For any number of threads requesting stop on a shared stop state, exactly one request returns true; every callback registered before that runs exactly once and every callback registered later runs immediately; after a callback object is destroyed its function is not running on another thread and will not run.", "quantifier": "every number of threads and every interleaving", "why_tests_cant": "Quantifies over all schedules.", "anchors": ["Extras/JThread/JThreadExtras/stop_token.hpp"]}
{"id": "C57", "title": "A cancellable sleep wakes up when stop is requested", "statement": "sleep_for(d, token) returns no later than the stop request made during the sleep, not after the whole duration.", "quantifier": "every interleaving of the sleeping and the stopping thread", "why_tests_cant": "Quantifies over all schedules; the losing window is a few instructions wide.", "anchors": ["Awl/Sleep.h: sleep_for"]}
{"id": "C58", "title": "A task delivers its result to the awaiter exactly once", "statement": "The coroutine awaiting a task resumes exactly once after the task finishes and gets its value or its exception; each coroutine frame is destroyed exactly once and never used after destruction, including when the task is released.", "quantifier": "every nesting depth, every order of resume, release, destruction and completion", "why_tests_cant": "Quantifies over all histories.", "anchors": ["Awl/Coro/UpdateTask.h, Awl/Coro/ProcessTask.h"]}
{"id": "C59", "title": "The command line parser accepts exactly option lists", "statement": "Arguments of the form '--name [value]' in any number and order are parsed to the map from name to value; repeated names and values without a name are rejected.", "quantifier": "every argument list", "why_tests_cant": "Quantifies over all argument lists.", "anchors": ["Awl/Testing/CommandLineProvider.cpp"]}
{"id": "C60", "title": "The test runner's exit code tells whether the tests passed", "statement": "The process exit code is zero exactly when all selected tests passed.", "quantifier": "every set of tests, filter and outcome of each test", "why_tests_cant": "A property of the runner itself; the runner's own tests cannot observe the exit code.", "anchors": ["Awl/Testing/TestConsole.cpp: Run, RunTests; Main/main.cpp"]}
{"id": "C61", "title": "A ring can be pushed a copy of its own element", "statement": "r.push_back(r[i]) and r.push_front(r[i]) have the same effect as pushing a copy of r[i] made before the call, as for the standard containers.", "quantifier": "every ring state and index", "why_tests_cant": "The bad case needs a full ring and the element that is about to be overwritten.", "anchors": ["Awl/Ring.h: push_back(const value_type&), push_front(const value_type&), allocate_next, allocate_prev"]}
{"id": "C62", "title": "A moved-from ring is empty and reusable", "statement": "After moving from a ring, the target shows the contents of the source and the source can be used like an empty container: size() is 0, iterating it visits nothing, it can be destroyed, given capacity with reserve, or assigned to.", "quantifier": "every ring state", "why_tests_cant": "Every state of the source.", "anchors": ["Awl/Ring.h: move constructor, move assignment, attach, release"]}
{"id": "C63", "title": "vector_set iterators stay valid", "statement": "An iterator to an element of a vector_set keeps pointing to the same element with the same value through every insertion and through every removal of another element; erase(it) removes exactly the element it points to and no other.", "quantifier": "every reachable set, every key and every iterator", "why_tests_cant": "Removing a node with two children moves another node into its place; whether that node keeps its identity depends on the tree shape.", "anchors": ["Awl/VectorSet.h: RemoveNode, Node::CopyFrom, insert, erase"]}
{"id": "C64", "title": "vector_set bounds with a heterogeneous key", "statement": "With a key of another type that the comparator accepts, lower_bound(k) is the first element not less than k and upper_bound(k) the first element greater than k, also when several elements are equivalent to k.", "quantifier": "every reachable set and every key compatible with the order", "why_tests_cant": "Which of several equivalent elements the search meets first depends on the tree shape.", "anchors": ["Awl/VectorSet.h: FindBoundByKey, lower_bound, upper_bound; Awl/TransparentCompositeCompare.h"]}
{"id": "C65", "title": "Comparing vector_sets", "statement": "a == b holds exactly when both sets have the same number of elements and elements at equal positions are equivalent, and never reads past the end of either set.", "quantifier": "every pair of reachable sets", "why_tests_cant": "Every pair of histories.", "anchors": ["Awl/VectorSet.h: operator==, operator!="]}
{"id": "C66", "title": "Elements of a cleared list are in no list", "statement": "After clear() the elements the list held report that they are in no list, and excluding or destroying them disturbs no list.", "quantifier": "every list, every element that was in it when clear() was called, every later history", "why_tests_cant": "The damage depends on what the list is used for after clear(); a test would have to guess the history.", "anchors": ["Awl/QuickList.h: clear; Awl/QuickLink.h: included, exclude, safe_exclude"]}
{"id": "C67", "title": "Splicing a list into itself changes nothing", "statement": "push_back(list&) and push_front(list&) with the list itself as the source leave the list as it was.", "quantifier": "every list", "why_tests_cant": "Aliasing of source and destination for every list length.", "anchors": ["Awl/QuickList.h: push_front, push_back"]}
{"id": "C68", "title": "Moving an observable to itself changes nothing", "statement": "Move-assigning an observable to itself keeps its observers subscribed.", "quantifier": "every observable and every list of subscribed observers", "why_tests_cant": "Aliasing of source and target for every subscription history.", "anchors": ["Awl/Observable.h: Observable::operator=, ClearObservers"]}
{"id": "C69", "title": "A ring destroys each element exactly once", "statement": "Every element placed into a ring is destroyed exactly once: when it is overwritten, popped, cleared, dropped by reserve, or when the ring is destroyed or assigned to; the buffer is never released with a live element in it.", "quantifier": "every capacity > 0 and every history of calls followed by destruction or assignment", "why_tests_cant": "Quantifies over all histories; leaks and double destruction are invisible to tests of values.", "anchors": ["Awl/Ring.h: pop_front, pop_back, allocate_next, allocate_prev, reserve, clear, free"]}
{"id": "C70", "title": "Subscribers of observable_sets never lose track", "statement": "Whatever a program does with a family of observable_sets (create, insert, erase, clear, subscribe, unsubscribe, move-construct, move-assign, migrate, destroy), a subscriber that starts with what the set showed when it subscribed and applies the events it is sent always finds them meaningful and arrives at the contents of the set it is subscribed to now; events are sent only when contents change.", "quantifier": "every history over every family of sets and observers", "why_tests_cant": "Quantifies over all histories of several interacting objects, including self-moves.", "anchors": ["Awl/ObservableSet.h: operator=, migrate, ~observable_set, insert, erase, clear"]}
{"id": "C71", "title": "The update queue owns every message block it allocates", "statement": "Whatever the threads do, including updates whose copy constructors throw, every message block the queue has allocated is in exactly one of the lists whose destructors delete their elements, so destroying the idle queue frees all of them exactly once.", "quantifier": "every interleaving, every number of threads, every throwing copy", "why_tests_cant": "Leaks and double deletions depend on the schedule and on throwing copies; tests use closures that do not throw.", "anchors": ["Awl/UpdateQueue.h: Push, ClearPending, FreeData, ~MessageQueue"]}
{"id": "C72", "title": "The update queue releases the functions of updates that are applied or dropped", "statement": "When no thread is inside the queue, the only functions (with their captured objects) it keeps alive are those of updates that still wait to be applied.", "quantifier": "every interleaving, every number of threads, every failing update, every use of ClearPending", "why_tests_cant": "Quantifies over all histories; the lifetime of captures is not asserted by tests.", "anchors": ["Awl/UpdateQueue.h: FreeData, ClearPending, Push"]}
{"id": "C73", "title": "Decimal multiplication is exact or throws", "statement": "multiply(x, y) throws or returns a decimal whose value is exactly the product (the comment on it says it throws if an overflow occurs).", "quantifier": "every pair of decimals of every type", "why_tests_cant": "2^128 pairs; tests multiply small numbers.", "anchors": ["Awl/Decimal.h: multiply, set_mantissa"]}
{"id": "C74", "title": "Seconds to nanoseconds", "statement": "decimal_to_nanoseconds(d) is exactly the number of nanoseconds in d seconds, or throws.", "quantifier": "every decimal of every type", "why_tests_cant": "2^64 values per type and digit counts beyond nine.", "anchors": ["Awl/DecimalTime.h: decimal_to_nanoseconds; Awl/Decimal.h: extend"]}
{"id": "C75", "title": "numeric_limits bound every decimal", "statement": "numeric_limits<decimal>::max() and min() are decimals of the type, and every decimal lies between them, numerically and for operator <=.", "quantifier": "every decimal of every type", "why_tests_cant": "All 2^64 values and all digit counts.", "anchors": ["Awl/Decimal.h: numeric_limits, compare"]}
{"id": "C76", "title": "Unary minus", "statement": "-x has exactly the negated value and the same digit count, -(-x) is x, and x - x is a (positive) zero.", "quantifier": "every decimal of every type", "why_tests_cant": "All 2^64 values.", "anchors": ["Awl/Decimal.h: operator-, negate"]}
{"id": "C77", "title": "set_mantissa and mantissa", "statement": "After set_mantissa(m) the decimal has the digit count it had and mantissa() is m, if |m| fits the mantissa, whatever the sign was before.", "quantifier": "every decimal, every m", "why_tests_cant": "2^128 combinations.", "anchors": ["Awl/Decimal.h: set_mantissa, mantissa"]}
{"id": "C78", "title": "Length limit of strings", "statement": "With a context that limits the length of strings, a string that is longer than the limit is refused with an I/O exception when it is written and when it is read, before memory for it is allocated; no string that is read exceeds the limit.", "quantifier": "every limit, character size, string, and every content of the stream", "why_tests_cant": "The length field in a stream can be any 64-bit number; tests try a few.", "anchors": ["Awl/Io/Rw/StringReadWrite.h: CheckStringLimit, Read, Write; Awl/Io/SerializationContext.h: LimitedContext"]}
{"id": "C79", "title": "Reading arbitrary bytes is safe", "statement": "Whatever bytes a stream contains, reading an object of any type either throws or yields an object that obeys the rules of its type (enumerators in range, sets sorted without duplicates, rings within their limit, strings within the length limit) and consumes no more than the stream has; it is never undefined behaviour.", "quantifier": "every type, every previous value of the object, every byte sequence", "why_tests_cant": "Corrupted and hostile inputs are unlimited in number.", "anchors": ["Awl/Io/Rw/*.h: Read"]}
{"id": "C80", "title": "Time points survive serialization", "statement": "A time point that is written and read back is equal to the original.", "quantifier": "every tick length and every time point", "why_tests_cant": "The result depends on the ratio of the clock's tick and a nanosecond; tests use the system clock of one platform.", "anchors": ["Awl/Io/Rw/ChronoReadWrite.h: Read, Write"]}
{"id": "C81", "title": "A failed version tolerant read leaves the object unchanged", "statement": "If VersionTolerantSerializable::Read throws, the object has the value it had before, whatever the stream contains.", "quantifier": "every structure type, movable or not, every previous value, every byte sequence", "why_tests_cant": "The exception can be thrown at any point of the stream.", "anchors": ["Awl/Io/VersionTolerantSerializable.h: Read, WriteSnapshot, ReadSnapshot"]}
{"id": "C82", "title": "An I/O error while writing a hashed stream is reported", "statement": "If the underlying output stream fails while a hashed or buffered stream writes to it (the disk is full), the user gets the exception of the underlying stream.", "quantifier": "every content, division into writes and position of the failure", "why_tests_cant": "The failure can come at any byte; and the destructor of the stream writes too.", "anchors": ["Awl/Io/HashStream.h: HashOutputStream::Write, Flush, ~HashOutputStream; Awl/Io/HashingSerializable.h: WriteSnapshotImpl"]}
{"id": "C83", "title": "A hashed input stream is safe on arbitrary bytes", "statement": "Whatever bytes a hashed input stream is opened on and whatever calls are made, every call returns data, reports the end of the stream or throws a corruption exception, without undefined behaviour, also after a corruption exception.", "quantifier": "every byte sequence, hash, block size and sequence of calls", "why_tests_cant": "Quantifies over all byte sequences and call sequences.", "anchors": ["Awl/Io/HashStream.h: HashInputStream::PeekBuf, FlushBuf, Read, End"]}
{"id": "C84", "title": "CRC-64 protected blocks detect every burst error of up to 64 bits", "statement": "A change of a stored block that is confined to 8 consecutive bytes anywhere in the block, including a change across the end of the payload and the beginning of the stored hash, is reported.", "quantifier": "every seed, payload and error pattern", "why_tests_cant": "2^64 error patterns per position.", "anchors": ["Awl/Io/HashStream.h; Awl/Crypto/Crc64.h: operator() (to_array); Awl/Int2Array.h: to_array"]}
{"id": "C85", "title": "A hashed stream works over any input stream", "statement": "Reading a hashed stream gives the written data also if the underlying stream returns fewer bytes than asked for, as pipes and sockets do and as the interface of Read allows.", "quantifier": "every content and every sequence of lengths of the underlying reads", "why_tests_cant": "Short reads do not happen with the memory and file streams of the tests.", "anchors": ["Awl/Io/HashStream.h: HashInputStream::PeekBuf; Awl/Io/SequentialStream.h: Read"]}
{"id": "C86", "title": "A Load that fails leaves the value unchanged", "statement": "If AtomicStorage::Load answers false, the object has the value it had before.", "quantifier": "every contents of the two files and every value", "why_tests_cant": "Needs files that were damaged or cut in every possible way.", "anchors": ["Awl/Io/AtomicStorage.cpp: Load, LoadFromFile"]}
{"id": "C87", "title": "A file with another header is not accepted", "statement": "A value saved with a header (format name and version) is read only by an object that expects the same format name and the same version; otherwise an I/O exception is thrown and nothing is read.", "quantifier": "every pair of headers, every value and format of the value", "why_tests_cant": "Quantifies over all pairs of headers.", "anchors": ["Awl/Io/HeaderedSerializable.h: ReadHeader, WriteHeader"]}
{"id": "C88", "title": "Saving through a snapshot gives the same file", "statement": "Saving with a mutex (a snapshot is taken under the lock and written later) gives the same bytes as saving without one.", "quantifier": "every value, every division of its bytes into writes, every block size and hash", "why_tests_cant": "The tests read the file back but do not compare it byte by byte for all values.", "anchors": ["Awl/Io/AtomicStorage.cpp: Save; Awl/Io/EuphoricallySerializable.h: MakeShanshot; Awl/Io/HashingSerializable.h: Write, WriteSnapshotImpl"]}
{"id": "C89", "title": "A file with data behind the value is not accepted", "statement": "LoadFromFile reports success only if nothing is left in the file after the value.", "quantifier": "every file contents", "why_tests_cant": "Needs files with every possible continuation.", "anchors": ["Awl/Io/AtomicStorage.cpp: LoadFromFile; Awl/Io/HashStream.h"]}
{"id": "C90", "title": "A unique pointer deletes its object exactly once", "statement": "For every history of construction, release, reset, swap, moving and destruction of unique_ptr variables, every object given to a pointer is deleted exactly once, unless it was released.", "quantifier": "every history of operations on any number of pointer variables", "why_tests_cant": "Quantifies over all histories, including self-move.", "anchors": ["Awl/UniquePtr.h"]}
{"id": "C91", "title": "Comparison of text without regard to case is an order", "statement": "Case-insensitive comparison is the lexicographic order of the lower-case texts: a strict weak order whose equivalence is equality of the lower-case texts; so it can be the comparator of a set or map.", "quantifier": "every pair and triple of texts", "why_tests_cant": "Order laws quantify over all texts, including characters outside ASCII.", "anchors": ["Awl/String.h: CStringInsensitiveLess, StringInsensitiveEqual; Awl/EnumTraits.h: enum_from_string"]}
{"id": "C92", "title": "A separator is written between elements only", "statement": "Writing a sequence with a separator gives the texts of its elements joined by the separator: none before the first and none after the last.", "quantifier": "every sequence and separator", "why_tests_cant": "Quantifies over all sequences.", "anchors": ["Awl/Separator.h"]}
{"id": "C93", "title": "A test sees the attribute values given on the command line", "statement": "A value written as text by the library's formatter and given as the value of an option is what the test reads for the attribute; a text that is no value of the type is not taken for one.", "quantifier": "every scalar type, every value, every text and every collection of texts", "why_tests_cant": "Ranges of 2^32 and 2^64 values; the failing ones are silently replaced by the default.", "anchors": ["Awl/Testing/ScalarFormatter.h, Awl/Testing/Formatter.h, Awl/Testing/LocalAttribute.h"]}
{"id": "C94", "title": "The shared stop state lives exactly as long as it is needed", "statement": "The state shared by stop sources, tokens and callbacks exists as long as one of them does and is deleted when the last one is destroyed, in every order of destruction.", "quantifier": "every history of copies, destructions, registrations and stop requests of all threads", "why_tests_cant": "Quantifies over all histories; a use of freed memory usually goes unnoticed.", "anchors": ["Extras/JThread/JThreadExtras/stop_token.hpp: __stop_state"]}
{"id": "C95", "title": "An interruptible wait loses neither the stop request nor a notification", "statement": "When request_stop has returned, no thread is or becomes blocked in a wait with a token of that stop state, and its wait returns; the same holds for notify_all after a change of the condition under the lock. A wait returns with the lock held, tells whether the condition is true, and returns false only after a stop request or when its time is over. No deadlock, and no use of the condition variable by a callback after the wait has returned.", "quantifier": "every number of waiting, notifying and stopping threads, timed and untimed waits, every interleaving, spurious wake-ups included", "why_tests_cant": "A lost wake-up needs one particular interleaving of two threads; tests hardly ever produce it.", "anchors": ["Extras/JThread/JThreadExtras/condition_variable_any2.hpp: wait, wait_until, wait_for, notify_one, notify_all"]}
{"id": "C96", "title": "A generator gives the values its coroutine yields", "statement": "Iterating over a generator gives exactly the values yielded by its coroutine, in order, and the exception that ended it; fmap applies its function to each. begin() gives an iterator to the current value, the end iterator if there is none. A coroutine belongs to one generator and is destroyed with it, whatever is moved, swapped or assigned.", "quantifier": "every coroutine body, every history of generators and iterators", "why_tests_cant": "Quantifies over all bodies and all histories of moves, assignments and iterators.", "anchors": ["Awl/Coro/Generator.h: Generator, fmap"]}
{"id": "C97", "title": "An asynchronous generator answers every await once, in order", "statement": "Every co_await of begin() or ++ is answered exactly once, by the next value, the end or the exception of the producer, and resumes the consumer that awaits; no value is lost or delivered twice, however the producer is suspended in between.", "quantifier": "every producer, any number of consumers and generators, every order in which the awaited things get ready", "why_tests_cant": "Depends on the order of resumptions of two coroutines.", "anchors": ["Awl/Coro/AsyncGenerator.h: AsyncGenerator, promise_type, advance_op, begin_op, increment_op"]}
{"id": "C98", "title": "A file stream writes all or throws, and reads what was written", "statement": "Write stores all bytes at the position or throws and leaves the file as it was; Read gives the next bytes; End tells whether there is nothing to read; Seek, Move and Truncate do what they say.", "quantifier": "every file, every position, every block of every length", "why_tests_cant": "Needs files of more than 2 GB, full disks and positions behind the end.", "anchors": ["Platforms/Posix/Awl/Io/NativeStream.h: PosixStream"]}
{"id": "C99", "title": "A file descriptor is closed exactly once", "statement": "A descriptor is open exactly as long as a handle has it: it belongs to one handle, moves with it, and is closed once.", "quantifier": "every history of construction, move, assignment and destruction of handles", "why_tests_cant": "Quantifies over histories; a double close hits an unrelated file.", "anchors": ["Platforms/Posix/Awl/Io/UniqueHandle.h: UniqueHandle; Platforms/Posix/Awl/Io/NativeStream.h"]}
{"id": "C100", "title": "Optional settings never get in the way of the program", "statement": "Opening, loading and saving optional settings do not throw because of the file system: if the files cannot be opened or read, the values stay as they are; otherwise the storage works as the crash-safe one.", "quantifier": "every content of the files, every failure of the file system", "why_tests_cant": "Failures of the file system at every point cannot be produced by a unit test.", "anchors": ["Awl/Io/OptionalStorage.h, Awl/Io/OptionalStorage.cpp: Open, Load, Save"]}
{"id": "C101", "title": "A persistent object loads and saves its own value", "statement": "load puts what the files hold into the value of the object, save stores the value of the object; no other object is touched, and moving the object does not change that.", "quantifier": "every history of construction, move, destruction, assignment, open, load, save and close of objects", "why_tests_cant": "Quantifies over histories; references to a moved object are silent errors.", "anchors": ["Awl/Io/PersistentObject.h"]}
{"id": "C102", "title": "A joining thread is stopped and joined exactly once", "statement": "A started thread belongs to one jthread object with its own stop source, wherever it is moved. Destruction and assignment request the stop of this thread and wait for its end; nothing calls terminate; every thread is joined or detached exactly once.", "quantifier": "any number of threads and objects, every history and interleaving", "why_tests_cant": "Quantifies over interleavings of threads that own each other's objects.", "anchors": ["Extras/JThread/JThreadExtras/jthread.hpp"]}
{"id": "C103", "title": "The watch dog stops its token exactly when told to", "statement": "The token of a watch dog is stopped when the user's token is stopped or the timeout is over, and for no other reason while the object lives. The log function is called at most once, only after the timeout, and only while the object lives. Destruction ends the thread, without waiting for the timeout.", "quantifier": "every interleaving of the owner, the watching thread, the clock and the user, including before construction is complete and during destruction", "why_tests_cant": "Interleavings of construction and destruction with a timeout cannot be produced by a unit test.", "anchors": ["Awl/WatchDog.h: watch_dog"]}
{"id": "C104", "title": "A singleton has one instance at a time", "statement": "A shared singleton is made at most once and every call returns it while it lives, nullptr after its death. An on-demand singleton has at most one living instance and every call returns it, or makes a new one.", "quantifier": "every history of calls and releases, failing constructors, and interleavings of calls of several threads", "why_tests_cant": "Quantifies over histories and interleavings.", "anchors": ["Awl/SharedSingleton.h: shared_singleton, ondemand_singleton"]}
{"id": "C105", "title": "The tables of version tolerant serialization are those of the type", "statement": "For every AWL_REFLECT structure that can be written field by field, the variant made of it lists the types inside of it, once each, in the order of their first occurrence, the tables made of the variant describe every structure inside of it, and what is written with them is read back.", "quantifier": "every type built of the supported types, of any depth", "why_tests_cant": "The tables are computed by the compiler from the type; a test has a few types.", "anchors": ["Awl/Mp/TypeCollector.h, Awl/Mp/TupleToVariant.h, Awl/Mp/VariantFromStructs.h, Awl/TupleHelpers.h: find_variant_type_v, Awl/Prototype.h, Awl/Io/PrototypeContainer.h"]}
{"id": "C106", "title": "The name of a type tells what is needed to read it", "statement": "Two types have the same name in the stream only if they have the same representation up to the kind of integer, of sequence, and of structure; a field that kept its name and got a type with another name is reported.", "quantifier": "every pair of types built of the supported types, of any depth", "why_tests_cant": "Quantifies over all pairs of types; names are strings with numbers and brackets in them that could be confused.", "anchors": ["Awl/Mp/TypeDescriptor.h: make_type_name, type_descriptor, FormatNumber; Awl/Io/Reader.h"]}
{"id": "C107", "title": "Memberwise comparison and hash", "statement": "Objects of a class with AWL_MEMBERWISE_COMPARABLE are equal exactly if all members are, compare by the first member that differs, the six operators agree with each other, and < can order a set if that of each member can; equal objects, and equal vectors, have equal hashes, and a change of the last member's hash changes the hash.", "quantifier": "every class, every member type whose < is a strict weak order, all objects", "why_tests_cant": "Quantifies over all classes and values; consistency of the operators and transitivity are about all triples.", "anchors": ["Awl/Tuplizable.h: AWL_MEMBERWISE_EQUATABLE, AWL_MEMBERWISE_COMPARABLE; Awl/Hashable.h: CombineHash, HashValueImpl, std::hash"]}
{"id": "C108", "title": "A shared handle is closed exactly once", "statement": "A handle given to a SharedHandle, and every handle made by copying, is closed exactly once, by the variable that has it, and not used afterwards; a copy and an assigned variable stand for the same object as the source, which is not changed; an empty variable is copied to an empty one; assigning a variable to itself changes nothing.", "quantifier": "every sequence of constructions, copies, moves, assignments and destructions", "why_tests_cant": "Quantifies over all histories; leaks and double closes have no visible effect in a test.", "anchors": ["Platforms/Windows/Awl/Io/SharedHandle.h, Platforms/Posix/Awl/Io/SharedHandle.h"]}
{"id": "C109", "title": "A single linked list is a stack of its elements", "statement": "After any sequence of push_front, pop_front and clear on any number of lists, the loop over a list gives exactly the elements added and not removed, the last added first; front, empty, size, empty_or_contains_one and contains_one agree with it; pop_front gives the element added last; an element says it is included exactly if it is in a list.", "quantifier": "every sequence of calls on any lists and elements in which an element is added to one list at a time and is not destroyed in a list", "why_tests_cant": "Quantifies over all sequences and shapes of the pointers.", "anchors": ["Awl/SingleList.h, Awl/SingleLink.h, Awl/SingleIterator.h"]}
{"id": "C110", "title": "Factory functions are called by their name", "statement": "create<T>(name, args...) calls the function registered with the name whose result is T and that accepts the arguments, wherever in the program it is registered, and throws FactoryException if there is none; a name is not registered twice for the same type; links that end are not found any more.", "quantifier": "every set of registrations, in every order of initialization, all names and arguments", "why_tests_cant": "Quantifies over all programs (sets of registrations) and all types of arguments.", "anchors": ["Awl/StaticChain.h, Awl/StaticFactory.h: create, AWL_FACTORY, AWL_REGISTER_FACTORY; Awl/StaticSingleton.h"]}
{"id": "C111", "title": "Multiprecision integers survive a round trip", "statement": "Any value of a Boost multiprecision integer type written to a stream and read back into the same type gives the same value and leaves the stream after it; a stream that ends too early is an error; different types are told apart by the names that version tolerant serialization stores.", "quantifier": "all values of the types with 128, 256, 512 and 1024 bits, signed and unsigned, followed by any bytes", "why_tests_cant": "There are up to 2^1024 values.", "anchors": ["Extras/Boost/BoostExtras/Io/Rw/MultiprecisionReadWrite.h: Read, Write; Extras/Boost/BoostExtras/MultiprecisionTypeName.h"]}
{"id": "C112", "title": "The parts of a packed multiprecision decimal are independent", "statement": "Sign, exponent and mantissa put into a packed decimal are got back, and setting one part does not change the others, for any values accepted.", "quantifier": "all numbers of bits of the exponent, all packed values and all parts", "why_tests_cant": "Quantifies over all values of 128 bits and more.", "anchors": ["Extras/Boost/BoostExtras/MultiprecisionDecimalData.h"]}
{"id": "C113", "title": "Rounding, clamping and the sign of numbers", "statement": "round gives an integer nearest to the number; clamp gives the value itself if it is between the bounds and otherwise the bound on its side; sign gives 1, 0 or -1.", "quantifier": "all numbers, all ranges of integer types, all comparators that are strict weak orders, all bounds that are not swapped", "why_tests_cant": "Quantifies over all numbers and comparators.", "anchors": ["Awl/Math.h: round, clamp, sign"]}
{"id": "C114", "title": "The fields of nested structures are counted and numbered", "statement": "countof_fields gives the number of the primitive fields of a type, counting the fields of structures inside it, and indexof_type gives the position of a type among them: the first if there are several, none if there is none; an index is always less than the count.", "quantifier": "all types made of primitive types and structures, nested to any depth", "why_tests_cant": "Quantifies over all types; the computation is done by the compiler.", "anchors": ["Awl/Io/TypeIndex.h"]}
{"id": "C115", "title": "Streams of the standard library are read and written completely", "statement": "Reading through the adapter of a standard input stream gives the bytes of the stream in order, in parts as long as requested while there are enough, and says End when there are none left; a write that returns without an exception has passed on all its bytes.", "quantifier": "all contents, all sequences of reads, writes and failures of the device", "why_tests_cant": "Depends on the buffer and on failures of the device.", "anchors": ["Awl/Io/StdStream.h; Awl/Io/ReadRaw.h"]}
{"id": "C116", "title": "A test assertion fails exactly if what it asserts is false", "statement": "IsTrue and IsFalse fail exactly if the condition is not met, Throws fails exactly if the expected exception is not thrown, AreEqual fails exactly if the values differ; the failure is a TestException.", "quantifier": "all conditions, all class hierarchies of exceptions, all endings of the function, all values of all integer types", "why_tests_cant": "Quantifies over all values and exception hierarchies.", "anchors": ["Awl/Testing/TestAssert.h"]}
{"id": "C117", "title": "The output of a failed test is shown, that of passed tests is not", "statement": "When tests run with filtered output, the report after a failure shows exactly the output of the test that failed, and if all tests pass no output is shown; the chain of tests is unlinked as a whole at the end.", "quantifier": "all numbers of loops, all tests, outputs and outcomes", "why_tests_cant": "Quantifies over all sequences of outcomes.", "anchors": ["Awl/Testing/TestMap.cpp: InternalRun; Awl/Testing/TestConsole.cpp: RunTests; Awl/Testing/TestChain.h"]}
{"id": "C118", "title": "A fixed string is the text it was made of", "statement": "A fixed string made of a literal has its text, size, characters by index and terminated C string; the sum has the text of both; two are equal exactly if their texts are; ASCII texts are the same text in every character type.", "quantifier": "all texts of all lengths", "why_tests_cant": "Quantifies over all texts.", "anchors": ["Awl/FixedString.h"]}
{"id": "C119", "title": "The hash of a text identifies it", "statement": "A text has the same hash as a string, a string view, a fixed string and a literal, and different texts have different hashes, so that a switch over the hash goes to the case of the text.", "quantifier": "all seeds, all texts of characters of one byte", "why_tests_cant": "Quantifies over all pairs of texts.", "anchors": ["Awl/Crypto/FixedHash.h; Awl/Crypto/IntHash.h; Awl/Crypto/Crc64.h; Awl/Mp/TypeHash.h"]}
{"id": "C120", "title": "Version tolerant reading of arbitrary bytes is safe", "statement": "Whatever bytes a stream contains, reading an object of any structure type with the version tolerant reader (tables of names, maps of fields, skipped fields) either throws or yields an object that obeys the rules of its type and consumes no more than the stream has; it is never undefined behaviour.", "quantifier": "every structure type with its tables, every previous value of the object, every byte sequence", "why_tests_cant": "Corrupted and hostile inputs are unlimited in number.", "anchors": ["Awl/Io/Reader.h: ReadV, ReadStructIndex, FindProtoMap, SkipField, SkipStruct; Awl/Io/Vts.h: ReadV"]}
{"id": "C121", "title": "The reader without tables reads back what a writer of the same version wrote", "statement": "Objects that the version tolerant writer has written are read back one after another by the plain reader, with the same result as the version tolerant reader gives; a stream that ends too early is reported with an exception; arbitrary bytes throw or give an object that obeys the rules of its type. The versions of the writer and of the reader are the same.", "quantifier": "all structure types, all values, all numbers of objects, all truncations, all byte sequences", "why_tests_cant": "Quantifies over all values, types and byte sequences.", "anchors": ["Awl/Io/PlainReader.h: ReadV; Awl/Io/BasicReader.h; Awl/Io/Writer.h: WriteV"]}
{"id": "C122", "title": "A stop watch tells whether an interval has elapsed", "statement": "HasElapsed(interval) is true exactly if the time since the start or the last reset is at least the interval, and stays true until the next reset; the elapsed count in a unit is the number of whole units that have passed.", "quantifier": "all start times, all intervals in all units, all times of the query", "why_tests_cant": "Tests cannot wait for long intervals nor hit exact moments.", "anchors": ["Awl/StopWatch.h: StopWatch"]}
{"id": "C123", "title": "A printed duration shows the duration", "statement": "The text of a duration shows exactly that duration with its sign, so that different durations of the same unit have different texts, and no more parts than were asked for.", "quantifier": "all durations of all decimal units, all numbers of parts", "why_tests_cant": "Quantifies over all 64 bit counts.", "anchors": ["Awl/Time.h: format_duration, operator << for StopWatch"]}
{"id": "C124", "title": "A time made of a date is that date", "statement": "make_time of a date and a time of the day is a moment at which the local clock shows that date and time, in every time zone and with changes of the offset, and the given fraction of a second is added.", "quantifier": "all dates of the Gregorian calendar, all times of the day, all time zones, all units of the clock and of the result", "why_tests_cant": "Quantifies over all dates, including leap days and century years.", "anchors": ["Awl/Time.h: make_time"]}
{"id": "C125", "title": "A decimal converted to double and back is the same decimal", "statement": "The conversion of a decimal to double gives the double nearest to the number, keeps the order of decimals, and converting that double back with the same number of digits gives the same decimal.", "quantifier": "all decimals of every configuration, all numbers of digits", "why_tests_cant": "Quantifies over all mantissas; rounding errors show up at particular numbers only.", "anchors": ["Awl/Decimal.h: cast, operator double, operator = (Float), make_decimal, make_rounded"]}
{"id": "C126", "title": "A decimal made of a double is on the side of the double that the name of the function says", "statement": "make_truncated is not greater in magnitude than the double, make_floored not greater, make_ceiled not less, each off by less than one unit of the last digit; make_rounded is off by at most half a unit; a number that does not fit is reported.", "quantifier": "all doubles, all numbers of digits", "why_tests_cant": "Quantifies over all doubles.", "anchors": ["Awl/Decimal.h: make_decimal, make_truncated, make_rounded, make_ceiled, make_floored"]}
{"id": "C127", "title": "Arithmetic of a decimal with a double is exact to the last digit", "statement": "Adding, subtracting, multiplying and dividing with a double gives the exact result if it has the digits of the decimal, otherwise a result that is off by less than one unit of the last digit; in particular multiplying by one changes nothing.", "quantifier": "all decimals, all doubles", "why_tests_cant": "Quantifies over all decimals and doubles.", "anchors": ["Awl/Decimal.h: operators + - * / += -= *= /= with double, make_other"]}
{"id": "C128", "title": "Text converted between narrow and wide characters is the same text", "statement": "Converting a wide text to the encoding of the locale and back, or a narrow text to wide characters and back, gives the same text; a text that cannot be converted is reported with an exception; no text leads to undefined behaviour.", "quantifier": "all texts, all locales whose encoding has no shift states", "why_tests_cant": "Quantifies over all texts and encodings; the unit tests use ASCII.", "anchors": ["Awl/String.h: EncodeString, DecodeString, StringConvertor, FromAString, ToAString, FromWString"]}
{"id": "C129", "title": "A printed 128 bit number shows its digits in the given width", "statement": "Printing a 128 bit number gives its decimal digits without leading zeros, a minus for negative numbers, filled up on the left to the width of the stream with its fill character, and nothing more if the number is longer than the width.", "quantifier": "all 128 bit numbers, all widths, all fill characters", "why_tests_cant": "Quantifies over 2^128 numbers and all widths.", "anchors": ["Awl/String.h: operator << for __uint128_t and __int128_t"]}
{"id": "C130", "title": "Iterating over an interval map visits every key once, in order, with its value", "statement": "A loop from begin() to end() over an interval map visits every key of every stored interval exactly once, in ascending order, together with the value that is stored for it, and then ends.", "quantifier": "all interval maps reachable by insertions, all key types and all sizes of intervals", "why_tests_cant": "Quantifies over all maps, key types and interval lengths; the unit test looks at a few short intervals.", "anchors": ["Tests/Experimental/IntervalMap.h: MyIterator, begin, end, rbegin"]}
{"id": "C131", "title": "A vector_set gives back all memory it takes, to the allocator it was given", "statement": "Every block of memory is taken from the allocator the set was given (by a constructor, or with the elements of another set) and given back to it exactly once, at the latest when the set is destroyed, also if a constructor of an element throws; get_allocator() returns that allocator.", "quantifier": "all histories of constructions, copies, moves, assignments, insertions, erasures and destructions over any number of sets with different allocators, all exceptions of element constructors", "why_tests_cant": "Leaks and mismatched deallocations are not observable in a test without instrumented allocators, and the histories are unbounded.", "anchors": ["Awl/VectorSet.h: CreateNode, DestroyNode, constructors, assignments, destructor, insert, emplace, erase, clear, get_allocator"]}
{"id": "C132", "title": "A decimal made of an integer is that integer, and its integer part is its integer part", "statement": "Making a decimal of an integer, with any number of digits behind the point, gives exactly that integer or an exception; casting a decimal to an integer type gives its integer part, the fraction is dropped towards zero; comparing a decimal with an integer compares the numbers.", "quantifier": "all integers, all integer types, all decimals, all numbers of digits", "why_tests_cant": "Quantifies over all 64 bit integers and decimals; the unit tests cast 1.", "anchors": ["Awl/Decimal.h: operator = (Float), make_decimal, make_rounded, make_ceiled, make_floored, make_truncated, cast, operator double"]}
{"id": "C133", "title": "A condition variable wakes the threads that wait, and may be destroyed as soon as they are notified", "statement": "A wait releases the lock and blocks in one act as seen by the notifying threads, so that notify_all wakes every thread that waits and notify_one one of them, and no notification after a change of the condition is lost. A wait returns with the lock held, or throws what the predicate throws with the lock held; it tells whether the predicate is true, false only if the wait is timed and its time is over; without a predicate the status tells whether the time is over. No deadlock. The object may be destroyed while threads that were waiting have not yet returned, and its memory is released when the last of them has.", "quantifier": "every number of waiting and notifying threads, waits with and without a predicate, timed and untimed, every interleaving, spurious wake-ups and exceptions of the predicate included", "why_tests_cant": "A lost wake-up or a use of the destroyed object needs one particular interleaving; tests hardly ever produce it.", "anchors": ["Extras/JThread/JThreadExtras/condition_variable_any2.hpp: wait, wait_until, wait_for, notify_one, notify_all, ~condition_variable_any2"]}
{"id": "C134", "title": "A floating point number is rounded to the nearest integer", "statement": "round of a floating point number gives the integer nearest to it, halves upwards, for every number of the type whose nearest integer the result type can hold; a result that it cannot hold is undefined.", "quantifier": "every floating point number of every precision (float, double), every integer type of the result", "why_tests_cant": "The sum with one half is itself rounded; the numbers for which that matters are one in 2^52 or have sixteen digits, and tests pick round ones.", "anchors": ["Awl/Math.h: round"]}
{"id": "C135", "title": "Degrees and radians are converted to within the precision of the type", "statement": "degrees_to_radians gives x times pi / 180 and raidans_to_degrees x times 180 / pi for the real number pi, with an error of at most 5/2^(p+1) of the result, p+1 being the binary digits of the type; converting there and back gives the number with the same bound; order and sign are kept; 180, 90 and 45 degrees are exactly pi, half_pi and quarter_pi and back, and half_pi and quarter_pi are exactly a half and a quarter of pi.", "quantifier": "every finite number, every precision from ten digits to that of double", "why_tests_cant": "A bound on the rounding error is a statement about all numbers, against the irrational number pi; tests compare a few values with a tolerance.", "anchors": ["Awl/Math.h: pi, half_pi, quarter_pi, degrees_to_radians, raidans_to_degrees"]}
{"id": "C136", "title": "A stop watch tells floating point times and intervals to within the precision of the type", "statement": "The elapsed count in any period is right to within 6/2^(p+1) of itself, seconds to within 3/2^(p+1) and the nearest number of the type if the nanoseconds have no more than its p+1 digits, whole seconds exactly; later times are not less. HasElapsed for floating point seconds is true only if the interval has passed and false only if it has not, up to the rounding of the interval; exactly so for whole seconds; what has elapsed stays so; the seconds told at a time have elapsed at that time and had not two nanoseconds before. The call is defined for all intervals up to 2^62 nanoseconds.", "quantifier": "every elapsed time, every finite interval, every precision (float, double)", "why_tests_cant": "The error depends on the digits of the elapsed nanoseconds; a test sees the times at which it happens to run and compares with a tolerance.", "anchors": ["Awl/StopWatch.h: GetElapsedCount, GetElapsedSeconds, HasElapsed"]}
{"id": "C137", "title": "A file stream on Windows writes all or throws, reads what was written, and goes where it is told", "statement": "A Write that returns has written all bytes at the position and left the others; it throws if and only if the disk has no room. Read gives the next bytes, as many as asked for if there are so many, none only at the end. Seek and Move go to the position or throw. Truncate makes the position the end. End, GetLength and GetPosition tell length and position or throw if no file is open. GetFileName gives the path. What returns on POSIX does the same on Windows.", "quantifier": "every file, position, buffer of any length and offset; every way in which a full disk answers; streams with and without a file", "why_tests_cant": "Buffers of 4 GB, positions before the beginning and streams without a file are not in the tests, and the tests of this platform run on Windows only.", "anchors": ["Platforms/Windows/Awl/Io/NativeStream.h: WinStream"]}
{"id": "C138", "title": "Opening a storage tells whether it was there and changes nothing that was", "statement": "Open of a storage answers whether one of its two files was there before the call; files that are there keep their contents, files that are made are empty. If it throws, the storage is closed, no descriptor is left open and no file was made. Outside of Open a storage has both files open or none, IsOpened tells which, IsEmpty tells whether both are empty. A storage that is told that no file was there is empty. No two storages have the same file open.", "quantifier": "every history of calls of Open, Close and Save by any number of threads, each with its own storage, every interleaving of the system calls with those of other threads and processes, every set of names that cannot be opened; POSIX and Windows", "why_tests_cant": "On POSIX there are two system calls for the question and the opening; a test does not run anything between them.", "anchors": ["Awl/Io/AtomicStorage.h: Open, IsOpened, IsEmpty, Close; Platforms/*/Awl/Io/NativeStream.h: CreateUniqueFile, OpenedExisting"]}
{"id": "C139", "title": "Pooled objects may use the pool in Finalize and in their destructors", "statement": "Whatever Finalize and the destructors of pooled objects do with the pool and with pointers to its objects: no pointer points to an object that is free or destroyed; each object is destroyed at most once; Finalize is called once each time an object that was taken is given up, also if make fails for want of memory; clear ends only when no object is free, and if no pointer is left then, all objects are destroyed. While Finalize of an object runs the object is not handed out again, is not destroyed and is not finalized again.", "quantifier": "every history of make, failed make, copying and dropping of pointers and clear, nested in Finalize and in destructors to any depth", "why_tests_cant": "The tests of the pool have objects that do nothing in Finalize; the nesting is unbounded.", "anchors": ["Awl/ObjectPool.h; Awl/PooledObject.h"]}
{"id": "C140", "title": "A set and its mirrors agree also after an observer has thrown", "statement": "When an observer of a set throws while the set notifies it (a mirror does so if its order does not distinguish elements, or if it is told of the removal of an element it does not have) and the program catches the exception and goes on: no operation is undefined, no mirror has an element that the source does not have, and after a clear that returns the source and all its mirrors agree. The mirrors agree with the source also before that, and an element can still be erased.", "quantifier": "every history of insert, erase, clear, reflect and subscriptions, every number of mirrors with any orders, observers that throw at any events", "why_tests_cant": "The tests stop at the first exception; the interplay of several mirrors after it is not tested.", "anchors": ["Awl/ObservableSet.h: insert, erase, clear; Awl/MirrorSet.h: OnAdded, OnRemoving, OnClearing, reflect; Awl/Observable.h: Notify"]}
{"id": "C141", "title": "Settings are found again by their names", "statement": "Any number of persistent objects open, load, save, close and remove settings by name in one directory, while operations of the file system fail at any place. What an object has saved under a name is what every object gets that later opens that name and loads; a save that fails leaves the old or the new value; other settings are not touched; removed settings are gone; no failure loses what is stored.", "quantifier": "every history of calls on any objects and names, with atomic and optional storages, every point of failure of opening, reading, writing and removing", "why_tests_cant": "Failures of the file system and their combinations with other objects are not produced by the tests.", "anchors": ["Awl/Io/PersistentObject.h: open, load, save, close, remove, append_extensions; Awl/Io/AtomicStorage.h, Awl/Io/AtomicStorage.cpp; Awl/Io/OptionalStorage.cpp"]}
{"id": "C142", "title": "Copies of stop tokens and sources refer to the same stop state", "statement": "Stop sources and stop tokens behave like plain values that name a flag, through copying, moving, copy and move assignment (also to themselves), swapping, comparing and destroying, with any number of stop states: a request through one source is seen by exactly the sources and tokens that name the same flag, succeeds once, and calls each callback registered with that flag once; a callback registered later is called at once; the stop state lives as long as a source exists and is deleted with its last reference.", "quantifier": "every program of calls on any number of sources, tokens and callbacks", "why_tests_cant": "Tests copy a few tokens; the books of references over all sequences of copies, moves and assignments are not testable.", "anchors": ["Extras/JThread/JThreadExtras/stop_token.hpp: stop_token, stop_source, stop_callback"]}
{"id": "C143", "title": "A program reads the files of earlier versions of its types", "statement": "A program whose structures have gained, lost, reordered and renamed fields, at any depth of nesting, reads what an earlier version of the program has written with the tables that the two programs derive from their C++ types: a field that still exists gets the written value, wherever it is now, a new field keeps the value it had, a removed field is passed over, nothing after the data is consumed, and truncated data are reported.", "quantifier": "all pairs of C++ types related by such changes, all values, all data that follow", "why_tests_cant": "Tests have a few versions of two structures; the tables, the names of types and the matching of structures interact over all types.", "anchors": ["Awl/Io/Reader.h: ReadOldPrototypes, AttachMetadata, ReadV, SkipField, FindProtoMap; Awl/Io/Writer.h: WriteNewPrototypes, WriteV; Awl/Io/PrototypeContainer.h; Awl/Io/TypeDescriptor.h; Awl/Io/Vts.h"]}
{"id": "C144", "title": "The settings survive an update of the program and a crash", "statement": "If a program was stopped at any moment while it saved its settings and is then replaced by a newer version whose structures have gained, lost, reordered or renamed fields, the newer version loads the settings saved before or those that were being saved, converted to its own structures, even if it is itself stopped while loading them, any number of times. A program that cannot read the files of another one does not destroy them.", "quantifier": "all pairs of C++ types related by such changes, all settings, all moments of the crash, all sequences of interrupted loads", "why_tests_cant": "The combination of crash recovery, checksums, headers, derived tables and changed structures cannot be enumerated; a test would have to stop two programs at every operation.", "anchors": ["Awl/Io/AtomicStorage.h; Awl/Io/AtomicStorage.cpp: Load, Save, LoadFromFile; Awl/Io/HeaderedSerializable.h; Awl/Io/HashingSerializable.h; Awl/Io/VersionTolerantSerializable.h: Read; Awl/Io/Reader.h; Awl/Io/Writer.h"]}
{"id": "C145", "title": "The nodes of vector_set are linked correctly and none is lost", "statement": "After any history of insert, erase, clear and queries on a vector_set, with any comparison that is a strict weak order, the nodes in memory are exactly the elements of the mathematical sorted set: every node is reached once from the root, its children point back to it, its counter is the number of nodes below it, and the list that iteration follows has the same nodes in the same order forwards and backwards. The operations report what the mathematical set reports, never follow a null pointer or the pointer to a freed node, never free a node twice, and always end. A pointer to an element stays valid, with the same value, until that element is removed, and removing it frees its node; clear and the destructor leave nothing allocated.", "quantifier": "all strict weak orders, all histories of operations, all elements", "why_tests_cant": "A wrong parent pointer or link does not show until a later operation climbs through it; the rebalancing cases depend on the shape of the tree, and there are infinitely many.", "anchors": ["Awl/VectorSet.h: Node, UpdateCount, SetParent, SetLeft, SetRight, CopyFrom, CreateNode, DestroyNode, insert, erase, clear, find, lower_bound, upper_bound, index_of, operator[], at, InsertNode, RemoveNode, RotateLeft, RotateRight, BalanceAfterInsert, BalanceAfterRemove, GetPredecessor, GetSuccessor; Awl/QuickLink.h; Awl/QuickList.h"]}
{"id": "C146", "title": "An exception leaves a vector_set as it was", "statement": "If the comparison, the constructor of an element or the allocator throws during insert, emplace, erase or a look-up on a vector_set, the set is what it was before the call: the same elements in the same order, every node and link untouched, every iterator and pointer still valid. Later calls report what they would report if the failed call had never been made. A call that makes no element has not taken any memory, and a call never throws on its own account. No memory is lost.", "quantifier": "all strict weak orders, all programs of calls that catch their exceptions, all moments at which the user's code may throw", "why_tests_cant": "Every call has as many moments at which an exception may be thrown as it makes comparisons, and a program combines them freely; what is lost does not show in the results.", "anchors": ["Awl/VectorSet.h: CreateNode, DestroyNode, insert, emplace, find, contains, erase, lower_bound, upper_bound, UniversalInsert, FindNodeByKey, FindBoundByKey, InsertNode"]}
{"id": "C147", "title": "An exception leaves a ring as it was", "statement": "If the constructor of an element or the allocator throws during push_back, push_front, reserve, a copy construction or a copy assignment of a ring, then the ring can still be used and destroyed and shows what it has shown before the call, and no memory is lost. Later calls do what they would do if the failed call had not been made.", "quantifier": "all element types, all programs of calls that catch their exceptions, all moments at which the user's code may throw", "why_tests_cant": "The tests use elements that do not throw and memory that does not run out; every element of a buffer is another moment at which an exception may be thrown, and what is lost does not show in the results.", "anchors": ["Awl/Ring.h: push_back, push_front, reserve, copy constructor, copy assignment, allocate_next, allocate_prev, copy, free, clear, pop_front, pop_back, destructor"]}
{"id": "C148", "title": "A foreign_set agrees with its source also after an exception", "statement": "If an observer of a set throws during insert, erase or clear, or a foreign_set of the set runs out of memory, and the program catches the exception and goes on, then every foreign_set of the set still shows exactly the elements of the set, grouped by foreign key, and later operations of the set are defined.", "quantifier": "all sets, all numbers of foreign_sets with any keys and of other observers in any order of subscription, all programs of insert, erase, clear, construction and destruction of foreign_sets, all choices of the observers that throw", "why_tests_cant": "The tests have observers that do not throw and memory that does not run out, and one foreign_set; what goes wrong shows only when the elements that were involved are erased later.", "anchors": ["Awl/ForeignSet.h: foreign_set, OnAdded, OnRemoving, OnClearing, find; Awl/ObservableSet.h: insert, erase, clear; Awl/Observable.h: Notify, Observer"]}
{"id": "C149", "title": "Observers of a group of a foreign_set are told every change of it until it ends", "statement": "An observer that is subscribed to the group of a foreign key is told each addition and removal of an element of the source with this key, in order and nothing else; during the call it finds exactly the elements of the source with the key, and so does a mirror_set of the group at any time. When the last element with the key goes, or the source is cleared, the observer is told once that the set is being cleared and is not subscribed any longer, also if elements with the key are added later.", "quantifier": "all sources and keys, all histories of changes of the source, of subscriptions to the groups and of unsubscriptions, any number of observers", "why_tests_cant": "The groups are created and destroyed by the events of the source; whether an observer misses a change, or is told about another key, depends on the whole history of all the groups.", "anchors": ["Awl/ForeignSet.h: foreign_set, OnAdded, OnRemoving, OnClearing, find; Awl/ObservableSet.h: insert, erase, clear, ~observable_set, Subscribe, Unsubscribe; Awl/MirrorSet.h: mirror_set"]}
{"id": "C150", "title": "An exception leaves an interval_map as it was", "statement": "When assign throws, because an allocation, a copy or a comparison of values does, the map is usable and as it was before the call. (What holds: no key has got a value that was not assigned to it; if a comparison threw, the assignment is complete; otherwise keys that have lost their values are in the interval [a, b] or had the same value as a together with all keys between. Every later call does what it does without the exceptions.)", "quantifier": "all integral key types, all histories of calls, each of which may fail at any of its operations that can throw", "why_tests_cant": "assign takes intervals out of the map and puts parts of them back; what is lost depends on which allocation fails and how the intervals overlap, and on what earlier failures have left.", "anchors": ["Tests/Experimental/IntervalMap.h: interval_map::assign, at, contains"]}
{"id": "C151", "title": "A value of an interval_map can be assigned to other keys of it", "statement": "m.assign(a, b, m.at(k)) assigns to the keys a ... b the value that k had before the call. (What holds: if the interval of k has no keys in [a, b], or begins there and ends behind b. In all other cases the call reads a value that it has destroyed.)", "quantifier": "all integral key types, all maps that calls of assign leave, all keys a, b, k", "why_tests_cant": "A destroyed value often still reads as before, and whether it is destroyed depends on how the interval of k overlaps [a, b].", "anchors": ["Tests/Experimental/IntervalMap.h: interval_map::assign, at"]}
{"id": "C152", "title": "Another version of the program that has all the fields gives the data back unchanged", "statement": "Data is written by a program, read and written by another version of it, and read by the first one: every value is what it was, if the other version has every field of the first one (under the same or a registered new name, in any order, with further fields of types that the first one knows), in nested structures and in the elements of vectors, arrays, rings, deques, optional values, pointers, variants and values of maps, too, and keys and elements of sets have the same type in both. CopyV from an object to an object of the other version and back does the same in memory: it reserves exactly the bytes it writes and fails only if there is no memory for them.", "quantifier": "all types of both versions that can be read as each other (C143), all values, all values of the added fields, all comparators", "why_tests_cant": "A test goes there and back with one pair of types; whether a value survives depends on the order of the fields of both versions at every level and on what the objects that are read into contain.", "anchors": ["Awl/Io/Vts.h: WriteV, ReadV, CopyV; Awl/Io/Reader.h, Awl/Io/Writer.h; Awl/Io/MeasureStream.h; Awl/Io/VectorStream.h"]}
{"id": "C153", "title": "is_ready and get of a ProcessTask tell and give what the body ended with, the value to one reader", "statement": "is_ready of a ProcessTask<T> says false until the body of the coroutine ends, true from then on if it returned a value, and throws its exception every time if one left the body; this does not change afterwards, even if the task is moved to another variable or its value was taken. get after that gives the value to the first one who reads it, be it get or a coroutine that awaits the task, a moved-from value to the others, and throws the exception every time; it changes nothing else and resumes nobody. get before the body ended is undefined; both end the program if the task has no coroutine. Programs that mix get with the other operations never use a destroyed coroutine.", "quantifier": "all structured programs of any number of coroutines, awaits, moves and gets in any order", "why_tests_cant": "Whether a value is there and who has read it depends on the order in which coroutines end and are awaited and moved; a test has one order.", "anchors": ["Awl/Coro/ProcessTask.h: is_ready, get, check_handle, rethrow"]}
{"id": "C154", "title": "Durations and hash values are printed so that the text says what they are", "statement": "A duration is printed as one number with its unit, or two numbers with a unit and the next smaller one where the second number is less than one of the first unit; the printed time is the duration without what is less than the last unit, and less than a tenth of it is lost, for negative durations, too; a duration of zero is ZERO TIME and no other is. A hash value is printed as 0x and two hexadecimal digits for each byte, so different values have different texts. Printing leaves the stream as it was.", "quantifier": "all durations and all hash values of any length, all contents of the stream", "why_tests_cant": "The precision and the carry between units depend on the magnitude of the duration, a test prints a few.", "anchors": ["Tests/Helpers/FormattingHelpers.h, Tests/Helpers/FormattingHelpers.cpp: PrintDuration, operator <<"]}
{"id": "C155", "title": "A collection written as the text of an attribute is read back from it, and a text that is no collection is refused", "statement": "A collection of numbers or characters written as text by the library's formatter is read back as the same collection. Numbers given with white space of any kind and length between them are read, in order. A text with a word in it that is no number of the type is not taken for a collection.", "quantifier": "all collections of any length of signed and unsigned integers of any width and of characters, all texts", "why_tests_cant": "The number, the length and the values of the elements are unbounded, and what is lost is lost silently; a test tries a few lists.", "anchors": ["Awl/Testing/Formatter.h: BasicFormatter of collections, ToString, FromString"]}
{"id": "C156", "title": "Saving with a mutex while other threads change the value saves a value that was there, and does not hold them up", "statement": "Threads change a value while they hold a mutex; others save it with that mutex, each to a storage of its own. What Save writes is the value as it was at a moment during the call when no thread was in the middle of a change, so changes completed before the call are in it and none is there in part; if the process stops at any moment, what is loaded afterwards is that or what would have been loaded before the call. Save holds the mutex only while it reads the value: not while it uses the files, and not after it returned or threw; it gives it back without waiting for anybody.", "quantifier": "every number of threads that change and save the value, every interleaving of single reads, writes and file operations, exceptions at every step, a crash at every moment", "why_tests_cant": "A value saved in part needs a change at the right moment between two reads; tests of Save have one thread.", "anchors": ["Awl/Io/AtomicStorage.cpp: AtomicStorage::Save, Awl/OptionalMutex.h, Awl/Io/EuphoricallySerializable.h: MakeShanshot, WriteSnapshot"]}
{"id": "C157", "title": "Updating the data version by version gives the same as updating it at once", "statement": "Data written by the first version of a program is read by the second version, written again, and read by the third version. The third version gets the value that it gets when it reads the first version's data directly, with the field names it has registered, wherever the changed structures are (nested, in containers, in maps as values, in variants). This holds if the second version has every field that the first and the third one have, the registered names lead to the same fields either way, elements of sets and keys of maps have the same type in all of them, and new objects of the second and third version agree in the fields they have in common; a field that the second version does not have is lost on the way, and new fields whose initial values differ between the versions come out different.", "quantifier": "every three versions of a type that can be read one as the other, every value of the first version, all objects that are read into, with bytes of anything else behind", "why_tests_cant": "Tests update sample structures from one version to the next; nobody tests all pairs of releases against all paths between them.", "anchors": ["Awl/Io/Vts.h: WriteV, ReadV; Awl/Io/Reader.h, Awl/Io/Writer.h; Awl/Io/FieldMap.h"]}
{"id": "C158", "title": "A balance kept in decimals is exact, whatever the order of the entries", "statement": "Decimals with any numbers of digits are added to a balance and subtracted from it, one after the other. If every amount and every balance in between fits the type with the largest number of digits among them, the balance is exactly the sum, and nothing is thrown. If all amounts together fit, the result is the same decimal, bit for bit, in whatever order they are entered, and taking all entries back, in any order, leads to a decimal that is equal to the first balance. The same amount entered in two balances keeps their order. An entry that is refused with an exception leaves the balance as it was. (Without the condition the order matters: the greatest decimal plus 1 minus 1 is -1.)", "quantifier": "all lists of entries of any length, all decimals with different numbers of digits, all widths of the type whose powers of ten fit, every order of the entries", "why_tests_cant": "Tests add two or three sample decimals; that the digits of a sum do not depend on the order of thousands of entries is not seen there.", "anchors": ["Awl/Decimal.h: decimal::operator +=, operator -=, operator +, operator -, operator <, operator =="]}
{"id": "C159", "title": "A log is one line for every message, with its level and its text", "statement": "Messages are logged with debug, trace, info, warning and error, in narrow or wide characters. Read line by line, and each line split at its first two tabs, the log has exactly one record for every call, in the order of the calls, with the level of the called function and the text of the message (which may have tabs), and every call returns normally. A wide message that cannot be encoded is refused with an exception before anything is written.", "quantifier": "all sequences of calls, all levels, all messages, all times, all encodings of wide characters, every amount of room on the device", "why_tests_cant": "Tests look at the log by eye; line feeds and zeros in messages, another compiler, a full disk and two threads at once do not occur there.", "anchors": ["Awl/ConsoleLogger.h: ConsoleLogger::log; Awl/Logger.h: Logger; Awl/LogString.h: LogString; Awl/LogLevel.h: LogLevel; Awl/Time.h: operator << for time_point"]}
{"id": "C160", "title": "A formula calculated in decimals from texts is exact, and so is its printed result", "statement": "Numbers are read from texts, and a formula is made of them with +, -, multiply, unary minus, normalize and truncate. If everything that is calculated on the way fits the type (the numbers themselves; operands and results of + and - with the larger number of digits of the two; products with the digits of both factors together), nothing is thrown and the printed result is exactly the value of the formula in arithmetic, with as many digits behind the point as the rules of the operations give. Results of formulas compare as the numbers do, so that formulas which are equal by the laws of arithmetic (for instance a * (b + c) and a * b + a * c) give equal decimals unless the value is zero.", "quantifier": "all formulas of any size, all texts, all widths of the type whose powers of ten fit and that have at least three bits for the number of digits", "why_tests_cant": "Tests calculate with a few sample decimals; that no combination of operations loses a digit is a statement about all formulas.", "anchors": ["Awl/Decimal.h: decimal(string_view), operator +, operator -, multiply, operator - (unary), normalize, truncate, operator <<, operator ==, operator <, operator <="]}
{"id": "C161", "title": "A stream in a memory of a fixed size keeps what is written", "statement": "A stream is made with a size. Whatever bytes and numbers are written into it, with Reset in between, are read from it again, in pieces of any lengths; the places that were not written are zero; writing never goes outside of the memory and reading reports the end of what was written. The three streams with a fixed memory leave the same bytes, and the measuring streams tell their number before.", "quantifier": "all sequences of writing, reading and Reset, all sizes, all lengths of pieces, all addresses of the memory, with and without assertions", "why_tests_cant": "Tests write exactly as much as was measured before and with numbers wherever they fall; too much data, truncated data and copies of a stream do not occur there.", "anchors": ["Tests/Experimental/Io/TrivialMemoryStream.h: TrivialMemoryStream, Write, Read; Tests/Experimental/Io/SampleStreams.h: SwitchMemoryOutputStream, VirtualMemoryOutputStream, VirtualMeasureStream, InlineMeasureStream; Tests/Experimental/Io/StreamUtils.h: StdCopy, PlainCopy"]}
{"id": "C162", "title": "A space hands out blocks that are arrays of their own", "statement": "A TrivialSpace is made with a size, and TrivialAllocator takes blocks from it. Until Reset every block is an array of its own: it is zero when it is new, a byte that is stored in it is read from it until it is stored again, whatever is done with the other blocks; the block has an address that is right for its type; GetLength is the sum of the lengths of the blocks and IsFull says whether there is nothing left. When there is too little memory the caller is told. The memory is given back when the space ends.", "quantifier": "all programs of allocations, stores, loads and Reset, all sizes, all numbers and lengths of objects, all addresses of the memory, with and without assertions", "why_tests_cant": "Tests take blocks of one type that fit; mixtures of types, too many objects, and what delete does with memory from new[] are not seen by them.", "anchors": ["Tests/Experimental/TrivialAllocator.h: TrivialSpace::Allocate, TrivialSpace::Reserve, TrivialSpace::Clear, TrivialSpace::Reset, TrivialSpace::GetLength, TrivialSpace::IsFull, TrivialAllocator::allocate"]}
{"id": "C163", "title": "A Reader can be used for many objects and many streams", "statement": "After ReadOldPrototypes any number of objects of any types can be read from the stream one after another; each of them is what it would be if it were the only one, and exactly the written bytes are consumed. After Initialize, objects written without tables by the same program are read back. After ClearPrototypes the Reader gives for the next stream, from any other version of the program, what a new Reader gives, also if the stream before ended with an exception.", "quantifier": "all sequences of streams with and without tables, all versions and types, all objects, all exceptions in between, with and without assertions", "why_tests_cant": "Tests use one Reader for one stream with two structures; Initialize and ClearPrototypes are not called with different versions, and no Reader is used after an exception.", "anchors": ["Awl/Io/Reader.h: Initialize, ReadOldPrototypes, AttachMetadata, ClearPrototypes, ReadV, FindProtoMap; Awl/Io/Writer.h: WriteNewPrototypes, WriteV; Tests/VtsTest.cpp: WriteDataV1, ReadDataV2"]}
{"id": "C164", "title": "The names of a reflected structure are the names of its members", "statement": "For every list of members given to AWL_REFLECT, get_member_names() has the names of the members in their order, so that the name at an index belongs to the member that for_each_index visits with it; find, find_cstr and find_index give the first position of a name or say that there is none. The members of a structure stored by their names are loaded back into a structure with the same members, in whatever order they are listed there, and the table for version tolerant serialization has the name and the type of each member.", "quantifier": "all lists of identifiers, written with and without white space before and behind each comma; all members and values; all pairs of structures; with and without assertions", "why_tests_cant": "Tests reflect two structures of three members written in the usual style, and never call find, find_cstr or find_index.", "anchors": ["Awl/Reflection.h: MemberList, AWL_REFLECT; Awl/TupleHelpers.h: for_each_index; Awl/Prototype.h: AttachedPrototype; Tests/StringizationTest.cpp: Stringizable_ForEach"]}
{"id": "C165", "title": "y_combinator makes a functor recursive", "statement": "The function made by y_combinator<R, Args...>(f) does what a recursive function with the body f does: the same calls, effects, result or exception; it ends if that one ends; it can be called any number of times and does not refer to f.", "quantifier": "every functor, with or without members it writes to; all arguments, effects, exceptions and depths of recursion", "why_tests_cant": "There is no test of y_combinator at all; and recursion is unbounded.", "anchors": ["Awl/Combinator.h: y_combinator"]}
{"id": "C166", "title": "A loop over a range of integers sees the values from the beginning to the end", "statement": "A loop over make_int_range(b, e) sees b, b + 1, ... e - 1, each once and in order, and nothing if e is not greater than b; a loop over make_count(n) sees 0 ... n - 1.", "quantifier": "every integral type, signed or not, of every width; all values of it, the least and the greatest included", "why_tests_cant": "Tests count to small numbers; the limits of the types and ranges that go backwards are not tried.", "anchors": ["Awl/IntRange.h: make_int_range, make_count; Awl/Testing/TestMap.cpp: Run; Awl/Io/Reader.h: MapPrototypes"]}
{"id": "C167", "title": "The traits tell what a value stands for", "statement": "object_address(x) is the address of the object that x stands for: the object a plain or smart pointer points to, or x itself; is_pointer_v tells which of these it is, remove_pointer_t is the type of that object; so what a foreign set keeps in its groups refers to the object of each element.", "quantifier": "all types built of classes, plain pointers, shared and unique pointers, arrays and qualifiers, to any depth; all variables", "why_tests_cant": "Tests check two types at compile time.", "anchors": ["Awl/TypeTraits.h: remove_pointer, is_plain_pointer, is_smart_pointer_v, is_pointer_v, is_copyable_pointer_v, object_address; Awl/ForeignSet.h: Pointer, ValueToPointer"]}
{"id": "C168", "title": "A ring forms only pointers into its buffer", "statement": "Pushing, popping and accessing elements of a ring forms only pointers that the language allows: into the buffer and one behind its end.", "quantifier": "all capacities; all histories of pushes, pops and clears; all positions", "why_tests_cant": "Forming such a pointer is undefined although nothing is read through it, so all usual compilers do what is expected; a test cannot see it, until a compiler makes use of it.", "anchors": ["Awl/Ring.h: address, data_end, last, push_back"]}
{"id": "C169", "title": "An element of a vector_set may be changed through an iterator", "statement": "A program may assign to an element through an iterator, if it then asks position_changed and, when the answer is yes, erases the element through the same iterator and inserts it again: the set is then the sorted set with that element replaced (or without it, if there is an equivalent one), for all that follows.", "quantifier": "all strict weak orders; all histories of operations and changes; all new values", "why_tests_cant": "Tests change no element in place.", "anchors": ["Awl/VectorSet.h: iterator, erase(iterator), insert; Awl/RangeUtil.h: position_changed"]}
{"id": "C170", "title": "Objects linked by shared pointers are written and read back", "statement": "Objects that refer to each other by std::shared_ptr are read back as they were written: whoever starts at the pointer and follows others sees the same values and null pointers, and pointers to the same object refer to the same object again, whatever the shape of the structure. Reading terminates with a value or an exception, whatever the bytes.", "quantifier": "all heaps of objects, all shapes (lists, trees, shared parts, cycles), all sizes of the stack, all bytes", "why_tests_cant": "A test writes a structure or two. That of every structure exactly the paths survive, that sharing is lost and doubles the size with every level, and that some bytes overflow any stack, are statements about all of them.", "anchors": ["Awl/Io/Rw/PointerReadWrite.h: Read, Write; Awl/Io/Rw/VectorReadWrite.h; Awl/Io/Rw/TuplizableReadWrite.h"]}
{"id": "C171", "title": "Observers of a set may change it when they are called", "statement": "An observer may insert into, erase from and clear the set that is calling it: all operations stay defined, and every observer still makes sense of what it is told and arrives at the contents of the set.", "quantifier": "all sets, all sequences of subscribers, all observers (arbitrary functions of the calls so far to operations on the set), all depths of nesting", "why_tests_cant": "A test has one observer that makes one change. Which observers may make which changes at which moments is a question about all of them, with operations nested in each other.", "anchors": ["Awl/ObservableSet.h: insert, erase, clear, NotifyAdded, NotifyRemoving; Awl/Observable.h: Notify"]}
{"id": "C172", "title": "Mirrors can be moved, and follow the sets they are attached to", "statement": "In a program with any number of observable sets and mirrors, which are created, attached, moved, assigned and destroyed in any order: a mirror that is attached to a set always has exactly the elements of that set, in its own order; a mirror attached to nothing is empty and may be attached to any set; the mirrors never make an operation of a set fail.", "quantifier": "all programs (sequences of operations on any number of sets and mirrors), all element types, all pairs of orders of which the mirror's is at least as fine", "why_tests_cant": "Tests attach one mirror to one set. Moving, assigning and destroying sets and mirrors that are attached to each other can be combined in unboundedly many ways.", "anchors": ["Awl/MirrorSet.h: mirror_set, reflect; Awl/ObservableSet.h: observable_set; Awl/Observable.h: Observer; Awl/QuickLink.h: basic_movable_link"]}
{"id": "C173", "title": "A vector_set keeps the order it was given, wherever it is copied and moved", "statement": "Sets of one type may have comparators that order differently. Copying, moving and assigning sets brings the order along with the elements, every operation works with the order that the set then has, and a set that was moved from is an empty set with the order it had.", "quantifier": "all programs with any number of sets, all comparators that are strict weak orders, all element types, all operations and comparisons of sets", "why_tests_cant": "A test has a few sets with stateless comparators; comparators with state that travels between sets along arbitrary chains of copies and moves are not sampled.", "anchors": ["Awl/VectorSet.h: constructors, operator =, operator ==, UniversalInsert, FindNodeByKey, FindBoundByKey, CopyElements"]}
{"id": "C174", "title": "Foreign sets may be moved and follow the sets they are constructed from", "statement": "In a program with several sets and foreign sets of them, where any of them may be moved, assigned and destroyed, a foreign_set that is attached to a set shows exactly the elements of that set by foreign key, one that is attached to nothing is empty, moving a foreign_set moves its groups and its place among the observers, and no operation of a set fails because of the foreign sets attached to it.", "quantifier": "all programs with any number of sets and foreign sets, all keys and orders of keys, all histories of operations of the sets, constructions, moves, assignments, destructions and subscriptions", "why_tests_cant": "A test moves one foreign set once; chains of moves of both the sources and the foreign sets, interleaved with changes, are unboundedly many.", "anchors": ["Awl/ForeignSet.h: foreign_set (constructors, implicit move operations), OnAdded, OnRemoving, OnClearing; Awl/Observable.h: Observer; Awl/ObservableSet.h"]}
{"id": "C175", "title": "A loop that advances before it handles an element may remove elements from a quick_list", "statement": "The iterators of a quick_list walk over its elements in order, in both directions, and over the end back to the first; an iterator stays at its element whatever happens as long as the element is finally in some list; and a loop that advances its iterator before it handles the current element may exclude, move to another list or (if its destructor takes it out of the list, as that of an observer does) destroy any of the elements it meets: it visits every element exactly once, in order, and exactly the kept ones remain.", "quantifier": "all histories of any number of lists and elements, all lists, both directions, all choices of what is done with each element, all bodies that leave the next element in the list", "why_tests_cant": "Which of the elements are removed, and from which place, are exponentially many combinations; a wrong link shows only in a later step.", "anchors": ["Awl/DoubleIterator.h: double_iterator; Awl/QuickList.h: begin, end, rbegin, rend; the loop of Awl/Observable.h: Notify"]}
{"id": "C176", "title": "An update queue leaves no message and no function behind", "statement": "Whatever was pushed, cleared and applied, also by the updates themselves and also if updates or copies of functions throw, destroying the queue deletes every message it has allocated and destroys every copy of a function it has made exactly once, its destructor follows no link of a message that is deleted already, and before that every copy is held by exactly one message or was destroyed exactly once.", "quantifier": "all histories of Push, ClearPending and the steps of ApplyUpdates, all places and kinds of exceptions, any number of messages", "why_tests_cant": "Leaks and double deletions depend on the order of calls and on the list each block happens to be in; a test sees them only in the histories it runs.", "anchors": ["Awl/UpdateQueue.h: Message, ~MessageQueue, Push, ClearPending, ApplyUpdates, PrepareData, FreeData; Awl/QuickList.h; Awl/DoubleIterator.h"]}
{"id": "C177", "title": "Functions on tuples visit every element once and in order", "statement": "for_each and for_each_index call the function for every element of a tuple once, from the first to the last, with its position, and stop at the first call that throws; tuple_to_array does the same and puts the result for each element at its position; transform_tuple calls the function for every element once and puts the results at the positions of the elements, in whatever order the compiler evaluates the calls, and its result is that of the calls in order; map_types compiles exactly if each type of the first list (without a reference) occurs exactly once in the second and gives its position there.", "quantifier": "all tuples, all functions with any state and any exceptions, all orders of evaluation, all lists of types", "why_tests_cant": "A test is compiled with one compiler, which evaluates arguments in one order, for a few tuples and for functions without a state.", "anchors": ["Awl/TupleHelpers.h: for_each, for_each_index, transform_tuple, tuple_to_array, tuple_cast, find_tuple_type_v, find_variant_type_v, map_types_t2t, map_types_t2v"]}
{"id": "C178", "title": "Visual C++ converts texts like the other compilers, but says why it cannot", "statement": "With Visual C++ the conversion of a text up to its first zero gives exactly what it gives with the other compilers: the bytes of its characters, or the characters of its bytes, and converting back gives the same text; exactly if the text cannot be converted string_encoding_error is thrown, and its number is EILSEQ; no text calls the handler for invalid parameters or leads to undefined behaviour.", "quantifier": "all texts, all locales whose encoding has no shift states", "why_tests_cant": "Quantifies over all texts and encodings; the code of Visual C++ is not compiled where the other one is tested.", "anchors": ["Awl/String.h: EncodeString, DecodeString, string_encoding_error (Visual C++)"]}
{"id": "C179", "title": "Decimals over Boost integers behave like those over built-in integers", "statement": "A program that computes with decimals over a Boost unsigned integer of w bits sees the same numbers, texts, comparisons, bits and exceptions as over a built-in integer of w bits, if it does nothing undefined there; over a Boost integer it never does anything undefined, unless it converts an empty text; sums that fit are exact, products that do not fit throw, and numeric_limits bounds all decimals of the type.", "quantifier": "all programs (sequences of construction, conversion from and to text, arithmetic, rescaling, rounding, normalization and comparison), all widths and numbers of digit bits", "why_tests_cant": "Quantifies over all programs and widths; the tests try a few numbers over uint128_t.", "anchors": ["Awl/Decimal.h: decimal; Awl/MultiprecisionDecimalData.h: MultiprecisionDecimalData; Awl/DecimalConstants.h: DecimalConstants"]}
{"id": "C180", "title": "Storages can be moved, and their files move with them", "statement": "Constructing a storage from another one, assigning it from another one and swapping two storages moves the open files with them: what is saved and loaded afterwards goes to the files of the storage that was moved, the other one is not open and can be opened again, the files an assigned storage had open are closed, messages go to the logger a variable was constructed with (or moved from), and assigning a storage to itself changes nothing; every descriptor that is open belongs to exactly one storage, none is closed twice, and none is open when all storages are closed or destroyed.", "quantifier": "all programs with any number of storages (construction, Open with and without success, moves, assignments, swaps, Save, Load, Close, destruction), all contents of the files, AtomicStorage and OptionalStorage", "why_tests_cant": "Quantifies over all programs; a descriptor that is closed twice does harm only if its number has been given to another file meanwhile.", "anchors": ["Awl/Io/AtomicStorage.h: AtomicStorage (move constructor, operator =, Open, Close); Awl/Io/OptionalStorage.h: OptionalStorage; Platforms/Posix/Awl/Io/UniqueHandle.h: UniqueHandle"]}
{"id": "C181", "title": "Types that have got other names are read if the program says so", "statement": "A program whose types have other names than in the version that wrote the data passes the old and the new names to ReadOldPrototypes. It then reads exactly what it would read without them if the types had had the new names when the data was written: the same values, also if fields were added, removed, reordered or renamed, and the same exceptions, whatever follows the tables. Every name is replaced once, so that names can be exchanged. Containers of a renamed type need not be listed. Data of the new version is read with the same names if none of its own names is replaced, and a type that is still unknown is reported before anything is read.", "quantifier": "all maps of names, all tables and names of the writing and the reading program that fit into memory, all bytes after the tables, all objects", "why_tests_cant": "Quantifies over all pairs of versions, maps and streams; no test of the library passes a map.", "anchors": ["Awl/Io/Reader.h: ReadOldPrototypes (type_map), AttachMetadata; Awl/Mp/TypeDescriptor.h"]}
{"id": "C182", "title": "Exceptions of reading say what is wrong with the data", "statement": "If data ends early, the text of the exception has the number of bytes asked for and the number of bytes there were. If a field of the data has a type that the program does not have, or whose type has changed, the text names the field and the types, and a storage logs it as a type mismatch. If a field of the data has been removed from the program and the reader does not allow this, the text names the first such field. The texts of two exceptions of these kinds are different unless kind, names and numbers are the same.", "quantifier": "all lengths of data, all tables of the data and of the program, all names and numbers, all functions that read or skip fields", "why_tests_cant": "Quantifies over all tables and numbers; the tests catch the exceptions by class and never look at their texts.", "anchors": ["Awl/Io/IoException.h; Awl/Io/Rw/ReadRaw.h; Awl/Io/Reader.h: AttachMetadata, ReadV, MapPrototypes, CheckTypesCompatible; Awl/Io/AtomicStorage.cpp: LoadFromFile"]}
{"id": "C183", "title": "Decimals and floats", "statement": "Converting a decimal to float gives the float that is nearest to its value as a double, and the value itself if a float can hold it. The relative error is at most 2^-22. Converting keeps the order of decimals. A decimal made from the float by rounding to the same number of digits is the decimal.", "quantifier": "all well-formed decimals over built-in integers with at most 22 digits after the point", "why_tests_cant": "Quantifies over all mantissas and numbers of digits and needs the rounding of two floating point formats; the tests convert a few short decimals.", "anchors": ["Awl/Decimal.h: cast, make_rounded, operator ="]}
{"id": "C184", "title": "An object in a Destructible is destroyed by Destroy and by nothing else", "statement": "Defining a Destructible constructs its object, or throws what the constructor throws and leaves nothing. Access gives that object until Destroy, which runs its destructor; access and Destroy afterwards are undefined. Leaving the scope destroys nothing, so an object without Destroy is never destroyed, and one with a scope guard that calls Destroy is destroyed exactly once. Copies have objects of their own.", "quantifier": "all programs that define, use, destroy, copy and assign any number of variables and leave their scopes in any order", "why_tests_cant": "Quantifies over programs; the test has one variable with one guard and never copies it.", "anchors": ["Tests/Experimental/Destructible.h: Destructible"]}
{"id": "C185", "title": "Damage to a file of settings is noticed", "statement": "If a file of settings in a hashed format is cut off or bytes of it are changed, Load says that it could not load and leaves the value as it was; if only the backup is damaged the value comes from the master, and if the master is damaged while there is a backup, from the backup. With CRC-64 every change of up to eight consecutive bytes of the data, or of a stored hash, is noticed. A value that was not saved is never loaded.", "quantifier": "all values, formats, hashes and block sizes; all positions and all changed bytes", "why_tests_cant": "Quantifies over all changes of all files; the tests damage a few files at a few places.", "anchors": ["Awl/Io/HashingSerializable.h; Awl/Io/HashStream.h; Awl/Io/AtomicStorage.cpp: Load, LoadFromFile; Awl/Crypto/Crc64.cpp"]}
{"id": "C186", "title": "A file of settings that cannot be read does not stand in the way of the other", "statement": "If one of the two files of a storage holds a value, Load succeeds whatever is in the other file: it gives that value, or the value the backup holds, and throws nothing. Load never changes the master unless the backup holds a value, however often the program is started.", "quantifier": "all contents of both files, all formats, any number of starts of the program", "why_tests_cant": "Quantifies over all contents a crash or a damaged disk can leave in a file.", "anchors": ["Awl/Io/AtomicStorage.cpp: Load, LoadFromFile; Awl/Io/Rw/VectorReadWrite.h; Awl/Io/Rw/StringReadWrite.h"]}
{"id": "C187", "title": "One stop request ends the sleep of all threads", "statement": "Any number of threads sleep with tokens of one stop state and any number of threads request the stop. One request returns true, and when it has, no thread is blocked in sleep_for any more; each call that is in progress returns after a few steps of its thread, whatever the others do. The request waits for none of the threads. No call returns before its duration has passed unless a stop was requested, and no callback uses a condition variable that is destroyed.", "quantifier": "all numbers of sleeping and of requesting threads, all durations, all interleavings, spurious wake-ups", "why_tests_cant": "Quantifies over all interleavings of any number of threads; the tests sleep in one thread.", "anchors": ["Awl/Sleep.h: sleep_for; Extras/JThread/JThreadExtras/stop_token.hpp: request_stop, stop_callback"]}
{"id": "C188", "title": "The text of an optional value tells whether there is a value", "statement": "Written to a stream, an optional value that is there is shown as the value itself and one that is not as the word empty, with the width and the fill character of the stream. Optional values that differ have different texts.", "quantifier": "all streams, widths and fill characters; all strings and all 128 bit numbers", "why_tests_cant": "Quantifies over all values and streams.", "anchors": ["Awl/String.h: operator << for std::optional"]}
{"id": "C189", "title": "The message about a wrong enumerator tells what was wrong", "statement": "A number that is no enumerator and a text that is the name of none are refused by the conversions of sequential enumerations with an exception, whose message has the name of the enumeration as a word and the number, in decimal digits, or the text that was given; so two wrong inputs have different messages.", "quantifier": "all enumerations, all numbers and all texts, narrow and wide programs", "why_tests_cant": "Quantifies over all wrong inputs; the tests look at none of the messages.", "anchors": ["Awl/EnumTraits.h: enum_to_index, enum_from_index, validate_enum, enum_from_string; Awl/Io/Rw/EnumReadWrite.h: ValidateEnum"]}
