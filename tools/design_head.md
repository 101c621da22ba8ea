# Formal model of the kindling collector

## How to read this project

* `properties.jsonl`: what should be true of the code, in English, with the place in the source it is about.
* `lean/Verif/`: the model, one module per Go package or part of one, and the proofs. Every definition cites the file and
  the lines it models, and says in its comment where it is simpler than the code.
* `MANIFEST.json`: for each property the theorems that prove it (generated by `tools/manifest.py` from `tools/claims.txt`).
* `seeded/LOG.jsonl`: wrong programs the theorems were tested against.
* This file is generated by `tools/design.py` from `tools/design_head.md`, the claims, the comments of the Lean files and the
  output of `#print axioms`.

## Method

* The code is modelled function by function as total computable functions on plain data. A property is stated with its own
  specification — a fold over the history, a set of values, a mathematical function, an encoder written from the protocol's
  standard, a step machine without the data structures of the code — and proved for all inputs, states and executions, by
  induction, invariants or refinement.
* Go `panic` (index out of range, failed type assertion, nil dereference, division by zero, close of a closed channel) is an
  explicit outcome: `Res.panic`, or an `Option` whose `none` is documented as the panic. Theorems claim the result, so they also claim
  that there is no panic, unless they say when there is one.
* Byte slices and Go strings are lists of bytes (of code points or characters where the code works on those). Maps are association lists
  (`AMap`) or functions; where the order of iteration over a map can be observed, every order is covered.
* Integers are unbounded where overflow is out of reach (said in the comment), and have the width of the code where wrap-around
  matters.
* Goroutines are step relations or lists of actions over an explicit state; every list of actions is an interleaving. Memory shared
  through pointers is explicit (heaps of cells) where aliasing matters: attribute maps, metrics, parser cache, service objects.
* Where the code does not have the property, the negation is proved (a universal statement or a witness reachable from the initial state)
  and what does hold is proved under a name with the suffix `_partial`, or as theorems that say exactly when it holds.
* Beside the theorems, `example`s show non-trivial cases that satisfy their hypotheses.
* The theorems were tested against wrong programs: thousands of single edits of the definitions were rebuilt automatically; an edit that
  changes the meaning but breaks no theorem led to a stronger theorem.

## Trusted base

* The kernel of Lean 4.33.0.
* The axioms `propext`, `Classical.choice`, `Quot.sound`, as listed with each theorem below. No axioms of our own, no `sorry`, no
  `native_decide`, no `bv_decide`.
* That the definitions say what the Go code does. They were written by hand from the text of the source; the code was neither built nor run.
* What the definitions take as given, listed in the next section, behaves as described there.

## What is not modelled

* The Go runtime: scheduling below the granularity stated in the modules, the memory model (a data race is not undefined behaviour
  here, but an interleaving of the stated steps), garbage collection, running out of memory.
* Libraries: OpenTelemetry SDK, Prometheus client, client-go (lists, watches, informers), zap, viper, lumberjack, gin/net/http, netlink sockets,
  hashicorp LRU (modelled from its documentation where the cache depends on it), go-conntrack types. Regular expressions of the SQL tools are
  written out by hand.
* The probe (C++ and eBPF), except for the layout of the events it sends where a theorem is about decoding them.
* JSON encoding and decoding, except that parsers given the decoded value are modelled (RocketMQ headers, metadata provider, control API).
* Configuration files and the construction of the components (`internal/application`, factories), except for the defaults and the rules that
  decide behaviour (aggregation kinds, selectors, time limits, module options).
* `pkg/observability`, the self metrics of the components (except the counters of the receiver, the request monitor's gauge and the UDP cache's
  counter), `pkg/esclient` and `esexporter` (not registered anywhere), `noopanalyzer`, test utilities, texts for debugging
  (`TextKindlingEvent`, `String` methods).
* IPv6 beyond what the conntrack cache does with it: the collector itself keeps the first 32 bits of an address only.

