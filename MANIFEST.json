{
 "claims": [
  {
   "property": "C01",
   "status": "proved",
   "theorems": [
    "Appdash.id_text_roundtrip",
    "Appdash.id_text_injective"
   ],
   "note": ""
  },
  {
   "property": "C02",
   "status": "proved",
   "theorems": [
    "Appdash.parse_id_exact",
    "Appdash.parse_id_rejects"
   ],
   "note": ""
  },
  {
   "property": "C03",
   "status": "proved",
   "theorems": [
    "Appdash.span_id_text_roundtrip",
    "Appdash.span_id_text_shape",
    "Appdash.span_id_text_injective"
   ],
   "note": ""
  },
  {
   "property": "C04",
   "status": "proved",
   "theorems": [
    "Appdash.parse_span_id_exact",
    "Appdash.parse_span_id_rejects"
   ],
   "note": ""
  },
  {
   "property": "C05",
   "status": "proved",
   "theorems": [
    "Appdash.id_json_roundtrip",
    "Appdash.id_json_string",
    "Appdash.id_json_int",
    "Appdash.id_json_other"
   ],
   "note": ""
  },
  {
   "property": "C06",
   "status": "proved",
   "theorems": [
    "Appdash.generated_ids_are_keystream",
    "Appdash.counter_never_repeats",
    "Appdash.id_pairs_never_repeat",
    "Appdash.generated_pairs_distinct"
   ],
   "note": ""
  },
  {
   "property": "C07",
   "status": "proved",
   "theorems": [
    "Appdash.child_of_its_parent",
    "Appdash.lineage_shares_trace",
    "Appdash.is_root_iff",
    "Appdash.spans_distinct"
   ],
   "note": ""
  },
  {
   "property": "C08",
   "status": "proved",
   "theorems": [
    "Appdash.packet_roundtrip",
    "Appdash.packet_arrives",
    "Appdash.packet_injective"
   ],
   "note": ""
  },
  {
   "property": "C09",
   "status": "proved",
   "theorems": [
    "Appdash.truncated_stream",
    "Appdash.truncated_stream_rejecting"
   ],
   "note": ""
  },
  {
   "property": "C10",
   "status": "partial",
   "theorems": [
    "Appdash.oversize_lost",
    "Appdash.accepted_arrive_partial",
    "Appdash.oversize_kills_connection"
   ],
   "note": "the full statement EveryAcceptedArrives is false of the code (oversize_lost): packets above 1 MiB are accepted by the client and refused by the server; it holds when all packets are within the limit"
  },
  {
   "property": "C100",
   "status": "partial",
   "theorems": [
    "Appdash.durations_do_not_survive",
    "Appdash.longest_duration_turns_negative",
    "Appdash.whole_millisecond_durations_survive_partial",
    "Appdash.event_numbers_close_partial"
   ],
   "note": "false of the code: durations go through a float64 number of milliseconds and are then cut off, so 249ns is read back as 248ns, and the longest duration as a negative one; exact for whole milliseconds below 2^53 ns, within one nanosecond below 2^52 ns"
  },
  {
   "property": "C101",
   "status": "partial",
   "theorems": [
    "Appdash.floats_do_not_survive",
    "Appdash.large_float_loses_fields",
    "Appdash.narrow_floats_survive_partial",
    "Appdash.event_numbers_close_partial"
   ],
   "note": "false of the code: the text is parsed with 32 bits, so 16777217 is read back as 16777216, and a float64 of 2^128 or more stops reading without an error, so later fields are lost; exact for values of float32, otherwise a relative error of at most 2^-23 for float64 values from 2^-126 to 2^127"
  },
  {
   "property": "C102",
   "status": "partial",
   "theorems": [
    "Appdash.recording_can_panic",
    "Appdash.nil_pointer_panics",
    "Appdash.recording_panics_iff",
    "Appdash.recording_partial",
    "Appdash.models_agree_recording"
   ],
   "note": "false of the code: a nil pointer anywhere in the event makes MarshalEvent panic, for example a nil *int field; recording_panics_iff says exactly when, over all types; every other event is recorded"
  },
  {
   "property": "C103",
   "status": "partial",
   "theorems": [
    "Appdash.recorded_events_not_read",
    "Appdash.pointer_to_struct_panics",
    "Appdash.interface_panics",
    "Appdash.pointer_to_time_is_lost",
    "Appdash.pointer_after_bad_field_is_nil",
    "Appdash.stringer_event_is_lost",
    "Appdash.stringer_number_is_lost",
    "Appdash.stringer_number_panics",
    "Appdash.pointers_survive_partial",
    "Appdash.nested_pointers_survive_partial",
    "Appdash.models_agree_reading"
   ],
   "note": "false of the code: a pointer to a struct or an interface makes reading panic, a pointer to a time.Time and all fields of an event with a String method are lost without an error; proved for events of values without pointers, pointers to booleans, numbers and strings, maps and non-empty sequences of such pointers, and structs of these nested to any depth, also among other annotations; for structs, maps and sequences of scalars the model agrees with that of C39"
  },
  {
   "property": "C104",
   "status": "partial",
   "theorems": [
    "Appdash.reading_can_panic",
    "Appdash.negative_index_panics",
    "Appdash.large_index_panics",
    "Appdash.steady_reading_partial",
    "Appdash.steady_registry_partial",
    "Appdash.library_reading_partial",
    "Appdash.annotations_panic_iff_partial"
   ],
   "note": "false of the code: for an event with a slice, an annotation with the key Tags.-1 makes reading panic; proved for event types without sequences, interfaces, defined scalars and pointers to anything but scalars, which includes all events of the library; for events whose fields are scalars, pointers to scalars, maps to scalars, interfaces, slices and arrays it is proved exactly which can be made to panic"
  },
  {
   "property": "C105",
   "status": "proved",
   "theorems": [
    "Appdash.recorded_program_shown",
    "Appdash.recorded_program_shown_remotely",
    "Appdash.recorded_program_shown_chunked",
    "Appdash.recorded_program_shown_end_to_end",
    "Appdash.recorded_program_repeated",
    "Appdash.recorded_program_retried"
   ],
   "note": "composition of the models of recorder, chunked collector, remote collector, server, store and event reading; that span IDs within the trace differ is a hypothesis (CausalTree), as they are random"
  },
  {
   "property": "C106",
   "status": "partial",
   "theorems": [
    "Appdash.tree_text_not_faithful",
    "Appdash.tree_text_forged",
    "Appdash.tree_text_key_confused",
    "Appdash.tree_text_iff_partial",
    "Appdash.tree_text_determines_partial"
   ],
   "note": "false of the code: line breaks in annotation values are written as they are, so a value can forge any subtree; proved, in both directions, for annotations without line breaks whose keys contain no equals sign"
  },
  {
   "property": "C107",
   "status": "partial",
   "theorems": [
    "Appdash.send_failures_not_reported",
    "Appdash.send_result_partial",
    "Appdash.send_attempts_partial",
    "Appdash.send_reports_unencodable_partial"
   ],
   "note": "false of the code: errors are asked for before the collector is called; proved: the result never depends on the collector, nil means that every span was tried, and a name of a span below the root that cannot be encoded ends send with an error"
  },
  {
   "property": "C108",
   "status": "proved",
   "theorems": [
    "Appdash.random_split_segments",
    "Appdash.sample_trace_shown",
    "Appdash.sample_data_shown"
   ],
   "note": "that the random IDs differ, that the collector accepts the calls and that the clock is between 1970 and 2262 are hypotheses (Normal)"
  },
  {
   "property": "C109",
   "status": "proved",
   "theorems": [
    "Appdash.format_text",
    "Appdash.format_unused_argument",
    "Appdash.tagged_query",
    "Appdash.tagged_query_id",
    "Appdash.documented_format_drops_query"
   ],
   "note": "fmt.Sprintf is modelled for string arguments and the verbs %s and %%; comments as in SQL, nested or not; the documented example's format is proved to lose the query"
  },
  {
   "property": "C11",
   "status": "partial",
   "theorems": [
    "Appdash.server_panics",
    "Appdash.server_survives_partial",
    "Appdash.server_survives_own_clients_partial"
   ],
   "note": "the full statement ServerSurvives is false of the code (server_panics): a packet without the optional parent field makes the server dereference nil; only such packets do"
  },
  {
   "property": "C110",
   "status": "proved",
   "theorems": [
    "Appdash.trace_string_read",
    "Appdash.trace_string_injective",
    "Appdash.span_string_read",
    "Appdash.span_string_injective"
   ],
   "note": "keys must be valid UTF-8, as JSON cannot carry others; json.MarshalIndent and the reader are models of encoding/json"
  },
  {
   "property": "C111",
   "status": "proved",
   "theorems": [
    "Appdash.server_calls_stored",
    "Appdash.server_client_order",
    "Appdash.server_settled_client",
    "Appdash.server_settled_complete",
    "Appdash.server_settles",
    "Appdash.server_can_serve",
    "Appdash.server_crashes_only",
    "Appdash.server_keeps_accepting",
    "Appdash.recorded_program_shown_by_server"
   ],
   "note": "reading a packet and collecting it is one step; the store's calls are atomic (C27)"
  },
  {
   "property": "C112",
   "status": "partial",
   "theorems": [
    "Appdash.closing_does_not_stop",
    "Appdash.closed_listener_log_partial"
   ],
   "note": "false of the code: Start has no way to return; proved: the log grows without bound while nothing is accepted"
  },
  {
   "property": "C113",
   "status": "partial",
   "theorems": [
    "Appdash.default_url_misleads",
    "Appdash.given_url_used",
    "Appdash.default_url_leads_iff_partial",
    "Appdash.address_accepted_iff",
    "Appdash.address_without_port"
   ],
   "note": "false of the code for IPv6 addresses and with TLS; proved: exactly when the URL is right; url.Parse is a parameter, escaping is not modelled"
  },
  {
   "property": "C114",
   "status": "partial",
   "theorems": [
    "Appdash.not_served_under_path",
    "Appdash.static_works_iff_partial",
    "Appdash.links_work_iff_partial",
    "Appdash.import_works_iff_partial",
    "Appdash.pages_work_iff_partial",
    "Appdash.root_works_partial"
   ],
   "note": "false of the code for every non-root path; proved: exactly which deployments work; escaping in URLs is not modelled"
  },
  {
   "property": "C115",
   "status": "proved",
   "theorems": [
    "Appdash.services_shown",
    "Appdash.services_named"
   ],
   "note": "the hypotheses (Handled.Ok) are the relations of Verif.Model.Http for the middleware and the transport; the network delivers headers; the collectors accept; generated IDs differ"
  },
  {
   "property": "C116",
   "status": "partial",
   "theorems": [
    "Appdash.Slices.collected_as_passed_partial",
    "Appdash.Slices.own_slices_not_shown_partial",
    "Appdash.Slices.late_event_replaces",
    "Appdash.Slices.shared_annotations_change",
    "Appdash.Slices.shown_after_finish"
   ],
   "note": "false of the code: an event recorded after Finish can replace an annotation of another recorder; proved: programs that hand slices over see what was passed; operations are atomic"
  },
  {
   "property": "C117",
   "status": "partial",
   "theorems": [
    "Appdash.Slices.multi_collected_as_passed_partial",
    "Appdash.Slices.overlapping_calls_lose",
    "Appdash.Slices.overlapping_multi_calls"
   ],
   "note": "false of the code once calls overlap; proved: calls one after another are shown as passed by every store"
  },
  {
   "property": "C118",
   "status": "partial",
   "theorems": [
    "Appdash.Chunked.timed_refines",
    "Appdash.Chunked.flush_returns_in_time",
    "Appdash.Chunked.automatic_flushes_apart",
    "Appdash.Chunked.settled_in_time_partial",
    "Appdash.Chunked.default_settled_partial",
    "Appdash.Chunked.delivered_in_time_partial",
    "Appdash.Chunked.time_goes_on",
    "Appdash.Chunked.waits_for_running_flush",
    "Appdash.Chunked.not_passed_after_min_interval",
    "Appdash.Chunked.unbounded_without_timeout"
   ],
   "note": "false of the code as documented: the interval begins when the running flush has ended; proved: the bound that holds, and that there is none without a time-out"
  },
  {
   "property": "C119",
   "status": "proved",
   "theorems": [
    "Appdash.opentracing_program_shown",
    "Appdash.opentracing_program_shown_chunked",
    "Appdash.unsampled_trace_absent",
    "Appdash.shown_span"
   ],
   "note": "TracedAs describes the contexts that basictracer makes; one trace is one tree with different span IDs; the collector returned no error"
  },
  {
   "property": "C12",
   "status": "proved",
   "theorems": [
    "Appdash.remote_whole_frames",
    "Appdash.server_never_mixes",
    "Appdash.remote_serialised",
    "Appdash.remote_attempts",
    "Appdash.remote_nil_means_written"
   ],
   "note": ""
  },
  {
   "property": "C120",
   "status": "partial",
   "theorems": [
    "Appdash.logs_not_shown",
    "Appdash.events_shown_partial",
    "Appdash.one_log_shown_partial",
    "Appdash.tags_taken_for_events"
   ],
   "note": "false of the code for spans with several logs; proved: exactly which events are shown"
  },
  {
   "property": "C121",
   "status": "partial",
   "theorems": [
    "Appdash.Chunked.order_not_kept",
    "Appdash.Chunked.order_kept_partial",
    "Appdash.Chunked.unflushed_order_partial",
    "Appdash.Chunked.all_in_order_partial"
   ],
   "note": "false of the code when flushes overlap; proved for flushes one at a time"
  },
  {
   "property": "C122",
   "status": "proved",
   "theorems": [
    "Appdash.services_shown_by_server",
    "Appdash.opentracing_shown_by_server"
   ],
   "note": "each packet arrives once and no connection breaks at the server's side; other clients send no packets of this trace and none that make the server panic"
  },
  {
   "property": "C123",
   "status": "partial",
   "theorems": [
    "Appdash.remote_order_changes",
    "Appdash.remote_order_partial"
   ],
   "note": "false of the code after a broken connection; proved for one connection"
  },
  {
   "property": "C124",
   "status": "partial",
   "theorems": [
    "Appdash.registered_pointer_panics",
    "Appdash.reading_panics_iff_partial",
    "Appdash.values_registered_agree"
   ],
   "note": "false of the code for events registered as pointers; proved: it panics exactly then"
  },
  {
   "property": "C125",
   "status": "proved",
   "theorems": [
    "Appdash.newer_packet_read",
    "Appdash.newer_client_served",
    "Appdash.fields_written",
    "Appdash.newer_client_says"
   ],
   "note": "the protocol buffer decoder is modelled (Verif.Model.Wire); unknown fields are well formed and have new numbers"
  },
  {
   "property": "C126",
   "status": "proved",
   "theorems": [
    "Appdash.server_takes_what_is_said",
    "Appdash.server_takes_all_that_is_said",
    "Appdash.says_unique",
    "Appdash.clients_say",
    "Appdash.said_is_in_message"
   ],
   "note": "the language of the protocol is specified apart from the decoder, in Verif.Spec.WireGrammar; the protobuf library is modelled, not part of /repo"
  },
  {
   "property": "C127",
   "status": "partial",
   "theorems": [
    "Appdash.every_request_recorded_false",
    "Appdash.every_request_recorded_partial"
   ],
   "note": "false of the code when the handler panics; proved: recorded exactly when it does not"
  },
  {
   "property": "C128",
   "status": "partial",
   "theorems": [
    "Appdash.embedded_files_broken",
    "Appdash.embedded_files_work_partial",
    "Appdash.embedded_file_read_all",
    "Appdash.readdir_prefix",
    "Appdash.readdir_exact"
   ],
   "note": "false of the code after a read beyond the end; proved for all other sequences of calls. Contents stand for what they decompress to"
  },
  {
   "property": "C129",
   "status": "proved",
   "theorems": [
    "Appdash.mixed_program_shown",
    "Appdash.mixed_events_shown",
    "Appdash.python_events_read"
   ],
   "note": "processes that have finished without an error on their side, as in C75, C78 and C122; the server has received all their bytes; it may have other clients"
  },
  {
   "property": "C13",
   "status": "proved",
   "theorems": [
    "Appdash.Chunked.queue_bounded",
    "Appdash.Chunked.overfull_drops"
   ],
   "note": ""
  },
  {
   "property": "C130",
   "status": "proved",
   "theorems": [
    "Appdash.json_read_iff",
    "Appdash.json_unambiguous",
    "Appdash.traces_unambiguous",
    "Appdash.upload_language",
    "Appdash.permalink_language",
    "Appdash.first_value_read",
    "Appdash.first_value_only",
    "Appdash.json_string_read",
    "Appdash.json_string_unchanged",
    "Appdash.value_base64",
    "Appdash.base64_unambiguous"
   ],
   "note": "encoding/json is modelled, see C82; JSON nested deeper than 10000 levels, which newer versions of Go refuse, is not; a second Annotations or Sub member replaces the first, where Go decodes into the old elements; which strings are base64 is left to the model of the decoder"
  },
  {
   "property": "C131",
   "status": "proved",
   "theorems": [
    "Appdash.restart_shown",
    "Appdash.restart_hides",
    "Appdash.restart_harmless"
   ],
   "note": "annotations from before the restart up to empty values having become nil, as in C29; this is what the code does, C30 says what was to be expected of it; restart_harmless is about traces with a parentless span"
  },
  {
   "property": "C132",
   "status": "proved",
   "theorems": [
    "Appdash.query_settings",
    "Appdash.app_answers",
    "Appdash.app_read_only",
    "Appdash.trace_request_answer",
    "Appdash.list_request_answer",
    "Appdash.other_requests_answer",
    "Appdash.upload_request_answer",
    "Appdash.upload_then_shown",
    "Appdash.bad_files_answer",
    "Appdash.server_auth"
   ],
   "note": "html/template is a parameter (what a set of files compiles to, what executing it gives), and so are the file server for /static/, the texts of errors and the URL of a redirect; one request at a time, MemoryStore as the store"
  },
  {
   "property": "C133",
   "status": "partial",
   "theorems": [
    "Appdash.missing_trace_not_found_false",
    "Appdash.missing_trace_partial"
   ],
   "note": "false of the code: the status is 500; proved: what the response is instead"
  },
  {
   "property": "C134",
   "status": "partial",
   "theorems": [
    "Appdash.responses_forget_false",
    "Appdash.stale_templates",
    "Appdash.responses_forget_partial"
   ],
   "note": "false of the code without ReloadTemplates after a failed load; proved with ReloadTemplates, or if the files were always the same and good"
  },
  {
   "property": "C135",
   "status": "proved",
   "theorems": [
    "Appdash.time_read_iff",
    "Appdash.rfc3339_read",
    "Appdash.rfc3339_unambiguous",
    "Appdash.format_rfc3339",
    "Appdash.format_shortest"
   ],
   "note": "package time is modelled; what versions of Go read differently (a comma before the fraction, more than nine digits, zones beyond 24:60, signs within the zone) is said in Verif.Model.TimeFmt"
  },
  {
   "property": "C136",
   "status": "partial",
   "theorems": [
    "Appdash.date_times_not_read",
    "Appdash.date_times_read_partial"
   ],
   "note": "false of the code for leap seconds and small letters; proved for the other texts with at most nine digits in the fraction"
  },
  {
   "property": "C137",
   "status": "proved",
   "theorems": [
    "Appdash.program_on_page",
    "Appdash.readable_page"
   ],
   "note": "composes C129 with C132"
  },
  {
   "property": "C138",
   "status": "partial",
   "theorems": [
    "Appdash.not_read_as_written",
    "Appdash.annotated_fields_read_partial",
    "Appdash.readsAs_unique",
    "Appdash.denoted_values_read_partial",
    "Appdash.written_float_denotes"
   ],
   "note": "false of the code: integers are cut to the width, float64 fields are rounded to float32, texts that cannot be read are ignored together with all later fields; proved: exactly what is read. strconv is modelled; hexadecimal numerals and underscores, which later versions of Go read, are not"
  },
  {
   "property": "C139",
   "status": "partial",
   "theorems": [
    "Appdash.not_proportional_reading",
    "Appdash.repeatedMessage_read",
    "Appdash.slice_of_any_length",
    "Appdash.event_size_partial",
    "Appdash.events_size_partial",
    "Appdash.proportional_reading_partial"
   ],
   "note": "false of the code: repeating the annotation that names a schema repeats the event, and indices make slices of any length; proved: linear for each named schema. Memory is counted on the values that are returned, not on what is allocated meanwhile"
  },
  {
   "property": "C14",
   "status": "proved",
   "theorems": [
    "Appdash.Chunked.annotation_in_one_place",
    "Appdash.Chunked.delivered_at_most_once",
    "Appdash.Chunked.collect_drop_reported",
    "Appdash.Chunked.flush_drop_reported"
   ],
   "note": ""
  },
  {
   "property": "C140",
   "status": "partial",
   "theorems": [
    "Appdash.AnnotationsText.annotations_shown",
    "Appdash.AnnotationsText.literal_determines",
    "Appdash.AnnotationsText.plain_value_shown",
    "Appdash.AnnotationsText.text_ambiguous",
    "Appdash.AnnotationsText.nil_value_shown",
    "Appdash.AnnotationsText.text_determines_partial",
    "Appdash.AnnotationsText.same_text"
   ],
   "note": "false of the code that the text determines the annotations: keys are not quoted and nil looks like empty; proved where keys have no line feed"
  },
  {
   "property": "C141",
   "status": "partial",
   "theorems": [
    "Appdash.TimelineSort.clicks_sort",
    "Appdash.TimelineSort.clicks_draw",
    "Appdash.TimelineSort.sorts_by_start_false",
    "Appdash.TimelineSort.sorts_by_time_partial",
    "Appdash.TimelineSort.items_timed",
    "Appdash.TimelineSort.queryFirst_sorted"
   ],
   "note": "The full statement (SortsByStart) is false of the code and its negation is proved; proved in general for the first timespans, and in full if spans without a parent have at most one timed event."
  },
  {
   "property": "C142",
   "status": "partial",
   "theorems": [
    "Appdash.TracesScript.aggregate_link",
    "Appdash.TracesScript.export_selected",
    "Appdash.TracesScript.export_selected_form",
    "Appdash.TracesScript.aggregates_selected_partial",
    "Appdash.TracesScript.aggregates_everything_partial",
    "Appdash.TracesScript.aggregates_all_partial",
    "Appdash.TracesScript.none_selected",
    "Appdash.TracesScript.new_trace_aggregated",
    "Appdash.TracesScript.aggregates_selected_false"
   ],
   "note": "The full statement (AggregatesSelected) is false of the code and its negation is proved; proved if some boxes but not all are ticked, or all and no trace was added."
  },
  {
   "property": "C143",
   "status": "partial",
   "theorems": [
    "Appdash.ViewModeScript.mode_chosen_partial",
    "Appdash.ViewModeScript.last_choice_counts",
    "Appdash.ViewModeScript.selected_in_mode",
    "Appdash.ViewModeScript.mode_chosen_false",
    "Appdash.ViewModeScript.choice_without_effect",
    "Appdash.ViewModeScript.selection_plain"
   ],
   "note": "The full statement (ModeChosen) is false of the code and its negation is proved; proved for addresses without # in which the view mode is set plainly."
  },
  {
   "property": "C144",
   "status": "partial",
   "theorems": [
    "Appdash.demo_url_leads_iff_partial",
    "Appdash.demo_urls_mislead",
    "Appdash.demo_link_leads",
    "Appdash.demo_trace_shown"
   ],
   "note": "The full statement (DemoURLsLead) about the printed URLs is false of the code and its negation is proved; the trace and the link are proved. url.Parse is a parameter, assumed to read plain URLs; the middleware and the transport are those of Verif.Model.Http"
  },
  {
   "property": "C145",
   "status": "partial",
   "theorems": [
    "Appdash.reading_not_one_moment",
    "Appdash.reading_repeats",
    "Appdash.reading_loses",
    "Appdash.reading_undisturbed_partial",
    "Appdash.reading_annotations_partial",
    "Appdash.reading_collected_partial",
    "Appdash.reading_complete_partial",
    "Appdash.reading_may_not_end",
    "Appdash.reading_ends_partial",
    "Appdash.moments_end",
    "Appdash.reading_during",
    "Appdash.reading_during_collected_partial",
    "Appdash.reading_during_undisturbed_partial",
    "Appdash.reading_during_complete_partial"
   ],
   "note": "The full statements (ReadsOneMoment, ReadsLoseNothing, ReadingEnds) are false of the code and their negations are proved. The reader sees the states between calls; in reading_during… also those in the middle of calls. What races allow beyond sequential consistency is not modelled"
  },
  {
   "property": "C146",
   "status": "partial",
   "theorems": [
    "Appdash.export_can_panic",
    "Appdash.export_undisturbed_partial",
    "Appdash.export_annotations_partial"
   ],
   "note": "The full statement (ExportNeverPanics) is false of the code and its negation is proved. How encoding/json walks a slice is part of the model (Model/Reading)"
  },
  {
   "property": "C147",
   "status": "partial",
   "theorems": [
    "Appdash.heading_and_range_partial",
    "Appdash.heading_wrong",
    "Appdash.heading_right_iff_partial",
    "Appdash.table_falls_behind",
    "Appdash.heading_follows_slider",
    "Appdash.table_follows_slider_partial",
    "Appdash.dashboard_page_partial"
   ],
   "note": "The full statements (HeadingTellsHours, TableFollowsSlider) are false of the code and their negations are proved. The browser, jQuery and the slider widget are not modelled beyond the events they deliver (Model/DashboardScript)"
  },
  {
   "property": "C148",
   "status": "partial",
   "theorems": [
    "Appdash.labels_show_escapes",
    "Appdash.plain_labels_partial",
    "Appdash.labels_are_short",
    "Appdash.escaped_labels_differ"
   ],
   "note": "The full statement (LabelsAreNames) is false of the code and its negation is proved. innerHTML's escaping of text is part of the model (Model/TimelineLabel)"
  },
  {
   "property": "C149",
   "status": "proved",
   "theorems": [
    "Appdash.one_view_displayed"
   ],
   "note": ""
  },
  {
   "property": "C15",
   "status": "proved",
   "theorems": [
    "Appdash.Chunked.flush_groups",
    "Appdash.Chunked.flush_errors"
   ],
   "note": ""
  },
  {
   "property": "C150",
   "status": "partial",
   "theorems": [
    "Appdash.TracesMenu.export_shows_ticked_partial",
    "Appdash.TracesMenu.export_nothing_partial",
    "Appdash.TracesMenu.export_shows_old",
    "Appdash.TracesMenu.one_menu",
    "Appdash.TracesMenu.menu_shown",
    "Appdash.TracesMenu.import_posts",
    "Appdash.TracesMenu.export_imported"
   ],
   "note": "The full statement (ExportShowsTicked) is false of the code and its negation is proved. The page is that of a browser without Flash; JSON.stringify is assumed to write JSON texts of the values it is given; Bootstrap's menus are assumed to do what they are told"
  },
  {
   "property": "C151",
   "status": "partial",
   "theorems": [
    "Appdash.TimelineMenu.page_keeps_items_partial",
    "Appdash.TimelineMenu.menu_acts_on_clicked_partial",
    "Appdash.TimelineMenu.heading_names_span_partial",
    "Appdash.TimelineMenu.click_leads_to_span_partial",
    "Appdash.TimelineMenu.part_ordinary",
    "Appdash.TimelineMenu.heading_names_span_false"
   ],
   "note": "The full statement (HeadingNamesSpan) is false of the code and its negation is proved. d3-timeline.js is not in the repository: it is assumed to draw a rectangle with a text for every timespan and to number the rows as trace.html says (Model/TimelinePage)"
  },
  {
   "property": "C152",
   "status": "partial",
   "theorems": [
    "Appdash.RecentTrace.young_whole_partial",
    "Appdash.RecentTrace.whole_or_gone_partial",
    "Appdash.RecentTrace.young_events_partial",
    "Appdash.RecentTrace.serve_young_partial",
    "Appdash.RecentTrace.whole_or_gone_false"
   ],
   "note": "The full statement (WholeOrGone) is false of the code and its negation is proved. The partial theorems leave out the traces of which a call is made or passed on after an eviction of the trace was decided."
  },
  {
   "property": "C153",
   "status": "proved",
   "theorems": [
    "Appdash.webapp_trace_shown",
    "Appdash.webapp_link_leads",
    "Appdash.webapp_visit_page"
   ],
   "note": "The middleware of Negroni and the redirects of the router for paths that are not clean are not modelled."
  },
  {
   "property": "C154",
   "status": "partial",
   "theorems": [
    "Appdash.ExampleOT.visit_shown",
    "Appdash.ExampleOT.home_shown",
    "Appdash.ExampleOT.endpoint_shown",
    "Appdash.ExampleOT.home_events_partial",
    "Appdash.ExampleOT.one_error_shown_partial",
    "Appdash.ExampleOT.errors_not_shown",
    "Appdash.ExampleOT.home_link"
   ],
   "note": "The full statement on errors (ErrorsShown) is false of the code and its negation is proved. That Extract finds the IDs that Inject put into the header is assumed: basictracer is not in /repo."
  },
  {
   "property": "C155",
   "status": "proved",
   "theorems": [
    "Appdash.snapshot_survives",
    "Appdash.snapshot_survives_start",
    "Appdash.unsaved_lost"
   ],
   "note": "gob is assumed to decode what it encodes; a crash is one of the process, not of the machine"
  },
  {
   "property": "C156",
   "status": "proved",
   "theorems": [
    "Appdash.program_survives_crashes",
    "Appdash.services_survive_crashes"
   ],
   "note": "built on C105, C115 and C155; the process that wrote the snapshot received all calls of the program; gob is assumed to decode what it encodes"
  },
  {
   "property": "C157",
   "status": "proved",
   "theorems": [
    "Appdash.socket_example_shown",
    "Appdash.twisted_example_shown"
   ],
   "note": "the texts of the clock readings are those of package strict_rfc3339, assumed to be RFC 3339 texts of at most 40 characters; the connection is not lost"
  },
  {
   "property": "C158",
   "status": "proved",
   "theorems": [
    "Appdash.python_tracer_shown"
   ],
   "note": "the spans are what basictracer hands to the recorder; packets within the limit of the server; one thread whose sends do not fail"
  },
  {
   "property": "C159",
   "status": "partial",
   "theorems": [
    "Appdash.tracer_example_partial",
    "Appdash.tracer_example_no_logs"
   ],
   "note": "the full statement TracerExampleLogs is false of the code: recorder.py does not look at the logs of a span; trees, names, times and tags are proved"
  },
  {
   "property": "C16",
   "status": "partial",
   "theorems": [
    "Appdash.Chunked.stop_not_final",
    "Appdash.Chunked.sends_after_stop",
    "Appdash.Chunked.stop_panics_unstarted",
    "Appdash.Chunked.stop_panics_twice",
    "Appdash.Chunked.stopped_collect_fails_partial",
    "Appdash.Chunked.stopped_collect_keeps_queue_partial",
    "Appdash.Chunked.stopped_sends_only_accepted_partial",
    "Appdash.Chunked.stopped_drained_silent_partial"
   ],
   "note": "the full statement StopIsFinal is false of the code: a running background flush (or a later Flush call) still sends, and Stop panics when not started or when called twice; what is sent after Stop was accepted before it"
  },
  {
   "property": "C160",
   "status": "proved",
   "theorems": [
    "Appdash.server_trace_survives",
    "Appdash.mixed_survives_crashes",
    "Appdash.page_survives_crashes"
   ],
   "note": "any trace of the collector server; programs of Go and Python processes; the page that a later process serves"
  },
  {
   "property": "C161",
   "status": "proved",
   "theorems": [
    "Appdash.packets_arrive_in_order",
    "Appdash.packets_arrive_at_most_twice",
    "Appdash.packet_arrives_twice"
   ],
   "note": "packet_arrives_twice shows that both bounds are met"
  },
  {
   "property": "C162",
   "status": "partial",
   "theorems": [
    "Appdash.deleted_sub_stays",
    "Appdash.delete_sub_exact_partial",
    "Appdash.delete_child_partial",
    "Appdash.delete_sub_unknown"
   ],
   "note": "the full statement DeletedSubGone is false of the code, as its comment says: a span below a child of the root stays, without annotations; proved: exactly what is shown for spans of every depth"
  },
  {
   "property": "C163",
   "status": "partial",
   "theorems": [
    "Appdash.MemStats.size_printed",
    "Appdash.MemStats.table_printed",
    "Appdash.MemStats.columns_aligned",
    "Appdash.MemStats.table_panics_iff",
    "Appdash.MemStats.reports_creep",
    "Appdash.MemStats.reports_not_alike",
    "Appdash.MemStats.report_partial"
   ],
   "note": "the full statement ReportsAlike is false of the code: each report is indented by two spaces more than the one before; the text of each report is proved"
  },
  {
   "property": "C164",
   "status": "proved",
   "theorems": [
    "Appdash.Locks.no_deadlock",
    "Appdash.Locks.calls_return",
    "Appdash.Locks.unlocks_own",
    "Appdash.Locks.waits_for_others",
    "Appdash.Locks.cycle_deadlocks"
   ],
   "note": "the model is what calls do to mutexes; all else is work that ends; cycle_deadlocks shows that cycles have to be excluded"
  },
  {
   "property": "C165",
   "status": "partial",
   "theorems": [
    "Appdash.trace_names_address",
    "Appdash.trace_hides_span",
    "Appdash.trace_determines_partial",
    "Appdash.debug_messages",
    "Appdash.sent_logged"
   ],
   "note": "the full statement TraceNamesSpan is false of the code: the address of a pointer is logged instead of the span; proved: the messages, taken one by one, determine the packets"
  },
  {
   "property": "C17",
   "status": "partial",
   "theorems": [
    "Appdash.Chunked.background_errors_not_all_reported",
    "Appdash.Chunked.background_error_lost",
    "Appdash.Chunked.collect_reports_latest_partial",
    "Appdash.Chunked.background_error_reported_partial",
    "Appdash.Chunked.errors_reported_once_partial",
    "Appdash.Chunked.stored_error_from_flush_partial",
    "Appdash.Chunked.collect_fails_only_if_partial"
   ],
   "note": "the full statement BackgroundErrorsReported is false of the code: a second failed background flush overwrites the first error"
  },
  {
   "property": "C18",
   "status": "proved",
   "theorems": [
    "Appdash.collect_never_panics",
    "Appdash.trace_finite_tree"
   ],
   "note": ""
  },
  {
   "property": "C19",
   "status": "proved",
   "theorems": [
    "Appdash.no_span_lost",
    "Appdash.spans_present_iff",
    "Appdash.cyclic_spans_lost"
   ],
   "note": "cyclic_spans_lost shows that the cycle condition is needed"
  },
  {
   "property": "C20",
   "status": "proved",
   "theorems": [
    "Appdash.span_under_declared_parent",
    "Appdash.temporary_root_above_its_parent"
   ],
   "note": "temporary_root_above_its_parent shows why the root is excluded"
  },
  {
   "property": "C21",
   "status": "proved",
   "theorems": [
    "Appdash.real_root_is_root",
    "Appdash.root_is_collected",
    "Appdash.span_zero_displaces_root"
   ],
   "note": "span_zero_displaces_root shows why ID 0 is excluded"
  },
  {
   "property": "C22",
   "status": "proved",
   "theorems": [
    "Appdash.tree_independent_of_history",
    "Appdash.tree_independent_of_order"
   ],
   "note": ""
  },
  {
   "property": "C23",
   "status": "proved",
   "theorems": [
    "Appdash.annotations_complete"
   ],
   "note": ""
  },
  {
   "property": "C24",
   "status": "proved",
   "theorems": [
    "Appdash.traces_isolated",
    "Appdash.trace_depends_on_live"
   ],
   "note": ""
  },
  {
   "property": "C25",
   "status": "proved",
   "theorems": [
    "Appdash.delete_removes",
    "Appdash.delete_starts_afresh"
   ],
   "note": ""
  },
  {
   "property": "C26",
   "status": "proved",
   "theorems": [
    "Appdash.traces_lists_all"
   ],
   "note": "for every map iteration order"
  },
  {
   "property": "C27",
   "status": "proved",
   "theorems": [
    "Appdash.store_serialisable",
    "Appdash.store_mutual_exclusion",
    "Appdash.store_calls_complete"
   ],
   "note": ""
  },
  {
   "property": "C28",
   "status": "partial",
   "theorems": [
    "Appdash.snapshot_not_stable",
    "Appdash.snapshot_stable_partial",
    "Appdash.pointer_shows_current_partial",
    "Appdash.pointer_shows_all_partial",
    "Appdash.pointer_frozen_partial"
   ],
   "note": "the full statement SnapshotStable is false of the code (snapshot_not_stable); it holds as long as nothing is collected for the same trace; otherwise the pointer shows exactly the current subtree of the span that was the root, until the trace is deleted, and from then on for ever what it showed at the deletion"
  },
  {
   "property": "C29",
   "status": "proved",
   "theorems": [
    "Appdash.persist_round_trip",
    "Appdash.persist_round_trip_exact",
    "Appdash.persist_count",
    "Appdash.empty_value_becomes_nil"
   ],
   "note": "gob is modelled by the values it transmits; that Write returns at all is C59"
  },
  {
   "property": "C30",
   "status": "partial",
   "theorems": [
    "Appdash.restart_transparent_false",
    "Appdash.restart_loses_updates",
    "Appdash.restart_partial"
   ],
   "note": "the full statement RestartTransparent is false of the code (restart_transparent_false): after ReadFrom the trace map and the span map no longer share nodes, so later annotations and children of spans from before the restart are not shown; it holds for traces not collected on both sides of the restart; what is shown of the others is C131"
  },
  {
   "property": "C31",
   "status": "proved",
   "theorems": [
    "Appdash.persist_crash_safe",
    "Appdash.write_sees_store",
    "Appdash.persist_recovers"
   ],
   "note": "process crashes, not machine crashes; rename is atomic"
  },
  {
   "property": "C32",
   "status": "partial",
   "theorems": [
    "Appdash.limit_max_false",
    "Appdash.limit_max_plus_one_partial",
    "Appdash.limit_max_partial"
   ],
   "note": "the full statement LimitHoldsMax is false of the code (limit_max_false): the ring marks a free slot with trace ID 0; proved for all other trace IDs, and with bound Max+1 for all"
  },
  {
   "property": "C33",
   "status": "partial",
   "theorems": [
    "Appdash.limit_fifo_false",
    "Appdash.limit_fifo_partial",
    "Appdash.limit_held_partial",
    "Appdash.limit_zero_partial"
   ],
   "note": "the full statement LimitFifo is false of the code for trace ID 0 (limit_fifo_false); proved for all other trace IDs"
  },
  {
   "property": "C34",
   "status": "proved",
   "theorems": [
    "Appdash.recent_evicts_old",
    "Appdash.recent_underlying"
   ],
   "note": "integers for times; the part of Collect under the mutex is one step"
  },
  {
   "property": "C35",
   "status": "proved",
   "theorems": [
    "Appdash.recent_bounds_age",
    "Appdash.recent_tracks"
   ],
   "note": "for 0 <= MinEvictAge < the greatest duration"
  },
  {
   "property": "C36",
   "status": "proved",
   "theorems": [
    "Appdash.multi_collect",
    "Appdash.multi_trace",
    "Appdash.multi_traces",
    "Appdash.multi_traces_error"
   ],
   "note": "stores and queryers with arbitrary, history-dependent answers"
  },
  {
   "property": "C37",
   "status": "proved",
   "theorems": [
    "Appdash.recorder_calls",
    "Appdash.recorder_once",
    "Appdash.recorder_unfinished"
   ],
   "note": "arbitrary collector; MarshalEvent's result is an input; sequential use"
  },
  {
   "property": "C38",
   "status": "proved",
   "theorems": [
    "Appdash.recorder_errors",
    "Appdash.recorder_errors_call",
    "Appdash.recorder_logged"
   ],
   "note": "arbitrary collector; sequential use"
  },
  {
   "property": "C39",
   "status": "proved",
   "theorems": [
    "Appdash.event_roundtrip",
    "Appdash.event_roundtrip_among",
    "Appdash.library_event_roundtrip",
    "Appdash.alphanumeric_names_apart"
   ],
   "note": "the clash condition and the exclusions are needed: see C62"
  },
  {
   "property": "C40",
   "status": "proved",
   "theorems": [
    "Appdash.schema_error_iff",
    "Appdash.schema_error_untouched",
    "Appdash.marshal_marker",
    "Appdash.marshal_custom",
    "Appdash.marshalled_has_schema"
   ],
   "note": ""
  },
  {
   "property": "C41",
   "status": "proved",
   "theorems": [
    "Appdash.events_roundtrip",
    "Appdash.library_events_roundtrip",
    "Appdash.register_found",
    "Appdash.register_panics"
   ],
   "note": "that names must not clash is needed: see C63"
  },
  {
   "property": "C42",
   "status": "proved",
   "theorems": [
    "Appdash.timespan_bounds",
    "Appdash.timespan_bounds_any",
    "Appdash.timespan_unreadable",
    "Appdash.timespan_read",
    "Appdash.library_event_times",
    "Appdash.library_untimed",
    "Appdash.days_epoch",
    "Appdash.days_next_day",
    "Appdash.days_next_month",
    "Appdash.days_next_year",
    "Appdash.instant_clock"
   ],
   "note": "events as annotations, through UnmarshalEvents; that times must be ordinary is needed: see C64. The days_* theorems and instant_clock show that the model's day count and instants are the calendar's"
  },
  {
   "property": "C43",
   "status": "proved",
   "theorems": [
    "Appdash.find_span_exact"
   ],
   "note": ""
  },
  {
   "property": "C44",
   "status": "proved",
   "theorems": [
    "Appdash.span_header",
    "Appdash.parent_header",
    "Appdash.no_header",
    "Appdash.set_then_get"
   ],
   "note": "header maps as association lists; the ID source is arbitrary"
  },
  {
   "property": "C45",
   "status": "proved",
   "theorems": [
    "Appdash.round_trip_spans",
    "Appdash.serves_span",
    "Appdash.call_connects",
    "Appdash.client_annotations",
    "Appdash.server_annotations",
    "Appdash.recorded_readable",
    "Appdash.round_trip_readable",
    "Appdash.serves_readable",
    "Appdash.delivered_self",
    "Appdash.round_trips_total",
    "Appdash.serves_total"
   ],
   "note": "arbitrary transport, next handler, clock, ID source, redaction and collector; the network delivers each header's values under its canonical name; the caller's header map must not hold another spelling of Span-Id"
  },
  {
   "property": "C46",
   "status": "proved",
   "theorems": [
    "Appdash.redacted_hidden",
    "Appdash.recorded_names",
    "Appdash.others_recorded",
    "Appdash.spellings_collide",
    "Appdash.redacted_irrelevant",
    "Appdash.listed_redacted",
    "Appdash.canonical_names",
    "Appdash.client_redacted_irrelevant"
   ],
   "note": "all map iteration orders; strings.EqualFold is modelled for ASCII and arbitrary beyond"
  },
  {
   "property": "C47",
   "status": "partial",
   "theorems": [
    "Appdash.always_passes_on_false",
    "Appdash.malformed_panics",
    "Appdash.always_passes_on_partial"
   ],
   "note": "the full statement AlwaysPassesOn is false of the code (always_passes_on_false): after logging that it continues, the middleware dereferences a nil span ID and panics; proved for well-formed or missing headers"
  },
  {
   "property": "C48",
   "status": "proved",
   "theorems": [
    "Appdash.recorded_length",
    "Appdash.recorded_status",
    "Appdash.recorder_transparent"
   ],
   "note": "for non-zero codes; what the client receives is C68"
  },
  {
   "property": "C49",
   "status": "proved",
   "theorems": [
    "Appdash.names_of_spans",
    "Appdash.profile_exact",
    "Appdash.profile_readable",
    "Appdash.profile_order",
    "Appdash.profile_recursive",
    "Appdash.profile_recorded",
    "Appdash.profile_unreadable",
    "Appdash.library_event_times"
   ],
   "note": "the conversion of a time span to milliseconds, through a float, is an arbitrary function"
  },
  {
   "property": "C50",
   "status": "proved",
   "theorems": [
    "Appdash.names_of_spans",
    "Appdash.aggregate_exact",
    "Appdash.aggregate_bounds",
    "Appdash.aggregate_unreadable"
   ],
   "note": "the conversion of a time span to milliseconds is an arbitrary function; sums are unbounded integers"
  },
  {
   "property": "C51",
   "status": "proved",
   "theorems": [
    "Appdash.names_of_spans",
    "Appdash.timeline_exact",
    "Appdash.timeline_ok",
    "Appdash.timeline_complete",
    "Appdash.timeline_durations",
    "Appdash.timeline_milliseconds",
    "Appdash.timeline_unreadable",
    "Appdash.library_event_times"
   ],
   "note": "the text of a duration in a label is an arbitrary function"
  },
  {
   "property": "C52",
   "status": "proved",
   "theorems": [
    "Appdash.upload_reproduces",
    "Appdash.permalink_reproduces",
    "Appdash.single_root_true",
    "Appdash.upload_subtree_reproduces"
   ],
   "note": "MemoryStore; JSON at the level of values (text, gzip and base64url of the permalink are trusted), keys through UTF-8 replacement, IDs, base64 values and nil slices modelled"
  },
  {
   "property": "C53",
   "status": "proved",
   "theorems": [
    "Appdash.upload_keeps_existing",
    "Appdash.upload_first_wins"
   ],
   "note": "every JSON request body, also one that fails halfway; every uploaded trace must carry one trace ID (see C70)"
  },
  {
   "property": "C54",
   "status": "proved",
   "theorems": [
    "Appdash.urls_routed",
    "Appdash.visit_trace",
    "Appdash.visit_span",
    "Appdash.urls_distinct",
    "Appdash.page_paths",
    "Appdash.request_methods"
   ],
   "note": "gorilla/mux's matching and path cleaning are modelled"
  },
  {
   "property": "C55",
   "status": "proved",
   "theorems": [
    "Appdash.auth_exact",
    "Appdash.auth_base64",
    "Appdash.auth_configured",
    "Appdash.auth_not_configured",
    "Appdash.auth_distinguishes"
   ],
   "note": "subtle.ConstantTimeCompare modelled as the fold of xor/or over equal lengths; base64 encoder modelled"
  },
  {
   "property": "C56",
   "status": "proved",
   "theorems": [
    "Appdash.failed_page",
    "Appdash.successful_page",
    "Appdash.page_served",
    "Appdash.invalid_status_mixes"
   ],
   "note": "net/http response writer modelled (status line, header snapshot at the first write, bodies dropped for 1xx/204/304); the log line of handleError and write errors of the connection are left out"
  },
  {
   "property": "C57",
   "status": "proved",
   "theorems": [
    "Appdash.unsampled_not_recorded",
    "Appdash.sampled_recorded",
    "Appdash.recorded_prefix",
    "Appdash.calls_owned",
    "Appdash.logged_once",
    "Appdash.logged_verbose"
   ],
   "note": "concurrent goroutines interleaved at collector calls; the text of json.Marshal and time.Add are parameters; tag values enter as formatted text"
  },
  {
   "property": "C58",
   "status": "partial",
   "theorems": [
    "Appdash.traces_ignores_ids",
    "Appdash.traces_contains_requested_partial"
   ],
   "note": "the full statement TracesHonoursIDs is false of the code (traces_ignores_ids); every requested trace is returned, but others too"
  },
  {
   "property": "C59",
   "status": "partial",
   "theorems": [
    "Appdash.write_returns_false",
    "Appdash.write_returns_iff_partial",
    "Appdash.write_returns_acyclic_partial"
   ],
   "note": "the full statement WriteReturns is false of the code (write_returns_false): a detached cycle of spans makes the encoder recurse for ever; the exact condition is proved"
  },
  {
   "property": "C60",
   "status": "partial",
   "theorems": [
    "Appdash.recent_keeps_new_false",
    "Appdash.recent_exact_partial",
    "Appdash.recent_found_partial"
   ],
   "note": "the full statement RecentKeepsNew is false of the code (recent_keeps_new_false): the goroutine that deletes runs later; proved if no Collect for the trace overlaps its eviction"
  },
  {
   "property": "C61",
   "status": "partial",
   "theorems": [
    "Appdash.recent_forgets_nothing_false",
    "Appdash.recent_exact_partial",
    "Appdash.recent_found_partial"
   ],
   "note": "the full statement RecentForgetsNothing is false of the code (recent_forgets_nothing_false), even without concurrent calls: a Collect for an old trace evicts that trace; proved if no Collect for the trace overlaps its eviction"
  },
  {
   "property": "C62",
   "status": "partial",
   "theorems": [
    "Appdash.every_event_survives_false",
    "Appdash.empty_slice_loses_next",
    "Appdash.empty_slice_gains_element",
    "Appdash.empty_struct_loses_next",
    "Appdash.clashing_names_lose",
    "Appdash.defined_type_panics",
    "Appdash.every_event_survives_partial"
   ],
   "note": "the full statement EveryEventSurvives is false of the code (every_event_survives_false); proved for conforming events"
  },
  {
   "property": "C63",
   "status": "partial",
   "theorems": [
    "Appdash.every_event_returned_false",
    "Appdash.two_messages",
    "Appdash.events_roundtrip",
    "Appdash.every_event_returned_partial"
   ],
   "note": "the full statement EveryEventReturned is false of the code (every_event_returned_false): annotations are read through a map; proved when field names do not clash"
  },
  {
   "property": "C64",
   "status": "partial",
   "theorems": [
    "Appdash.timespan_always_bounds_false",
    "Appdash.zero_start_forgotten",
    "Appdash.far_future_is_earlier",
    "Appdash.timespan_always_bounds_partial"
   ],
   "note": "the full statement TimespanAlwaysBounds is false of the code (timespan_always_bounds_false); proved for ordinary times"
  },
  {
   "property": "C65",
   "status": "partial",
   "theorems": [
    "Appdash.aggregate_order_free_false",
    "Appdash.aggregate_order_matters",
    "Appdash.aggregate_order_free_partial"
   ],
   "note": "the full statement AggregateOrderFree is false of the code (aggregate_order_free_false): a first value of zero is counted as one; proved: the same labels, values that differ by at most one, and equality if no time is zero"
  },
  {
   "property": "C66",
   "status": "partial",
   "theorems": [
    "Appdash.names_of_spans",
    "Appdash.every_timed_span_shown_false",
    "Appdash.untimed_root_hides",
    "Appdash.every_timed_span_shown_partial"
   ],
   "note": "the full statement EveryTimedSpanShown is false of the code (every_timed_span_shown_false): an untimed span hides all spans below it; proved: exactly the timed spans with timed ancestors are shown"
  },
  {
   "property": "C67",
   "status": "partial",
   "theorems": [
    "Appdash.own_durations_false",
    "Appdash.two_times_one_duration",
    "Appdash.own_durations_partial"
   ],
   "note": "the full statement OwnDurations is false of the code (own_durations_false): a root's timespans all carry the duration of the first; proved for other spans and for single timespans"
  },
  {
   "property": "C68",
   "status": "partial",
   "theorems": [
    "Appdash.status_received_false",
    "Appdash.late_status_recorded",
    "Appdash.status_received_partial"
   ],
   "note": "the full statement StatusReceived is false of the code (status_received_false): a later WriteHeader call is ignored by net/http but recorded; proved for handlers that call WriteHeader at most once, first"
  },
  {
   "property": "C69",
   "status": "partial",
   "theorems": [
    "Appdash.upload_always_reproduces_false",
    "Appdash.two_roots_swapped",
    "Appdash.displaced_root_not_reproduced",
    "Appdash.invalid_key_changed",
    "Appdash.upload_reproduces_iff_partial"
   ],
   "note": "the full statement UploadAlwaysReproduces is false of the code: the spans are collected in depth-first order, and a second parentless span, or a span that is the root's declared parent, displaces the root; the theorem gives the exact condition"
  },
  {
   "property": "C70",
   "status": "partial",
   "theorems": [
    "Appdash.upload_never_alters_false",
    "Appdash.foreign_span_alters",
    "Appdash.upload_alters_only_named_partial"
   ],
   "note": "the full statement UploadNeverAlters is false of the code: only the trace ID of the top span is checked, sub-spans are collected into whatever trace they name"
  },
  {
   "property": "C71",
   "status": "partial",
   "theorems": [
    "Appdash.failed_upload_stores_nothing_false",
    "Appdash.half_upload_stores",
    "Appdash.failed_upload_partial"
   ],
   "note": "the full statement FailedUploadStoresNothing is false of the code: a null after some valid traces makes the handler panic after it has collected them"
  },
  {
   "property": "C72",
   "status": "proved",
   "theorems": [
    "Appdash.recorded_name",
    "Appdash.recorded_times",
    "Appdash.recorded_tags"
   ],
   "note": "about the concatenation of the calls' annotations, which is what a fresh span of a MemoryStore holds (C23)"
  },
  {
   "property": "C73",
   "status": "proved",
   "theorems": [
    "Appdash.flat_event_survives",
    "Appdash.library_flat_event_survives",
    "Appdash.later_key_overwrites"
   ],
   "note": "reflective event types; the condition on later annotations is shown to be needed"
  },
  {
   "property": "C74",
   "status": "proved",
   "theorems": [
    "Appdash.causal_tree_reconstructed",
    "Appdash.causal_tree_through_chunks",
    "Appdash.causal_tree_end_to_end",
    "Appdash.causal_shape_with_retries"
   ],
   "note": "composition of the store, chunked and remote models; distinctness and non-zeroness of the random IDs is a hypothesis"
  },
  {
   "property": "C75",
   "status": "proved",
   "theorems": [
    "Appdash.Py.python_bytes",
    "Appdash.Py.python_packets_received",
    "Appdash.Py.python_one_thread",
    "Appdash.Py.python_whole_sends"
   ],
   "note": "packets above 1 MiB excluded (C10); the protobuf runtime of Python is modelled for the fields used"
  },
  {
   "property": "C76",
   "status": "partial",
   "theorems": [
    "Appdash.Py.returned_not_received",
    "Appdash.Py.returned_not_received_threads",
    "Appdash.Py.received_not_collected",
    "Appdash.Py.received_before_partial"
   ],
   "note": "the full statements ReturnedIsReceived and ReceivedWasCollected are false of the code: after a failed send the collector goes on with the same socket in the middle of a packet, and there is no lock; proved: what returned before the disorder is received"
  },
  {
   "property": "C77",
   "status": "proved",
   "theorems": [
    "Appdash.Py.python_span_id_text",
    "Appdash.Py.python_child"
   ],
   "note": ""
  },
  {
   "property": "C78",
   "status": "partial",
   "theorems": [
    "Appdash.Py.twisted_loses",
    "Appdash.Py.twisted_shares",
    "Appdash.Py.twisted_repeats",
    "Appdash.Py.twisted_known_partial",
    "Appdash.Py.twisted_kept_partial",
    "Appdash.Py.twisted_one_partial"
   ],
   "note": "the full statements NothingLost, OnlyOwn and WrittenOnce are false of the code: the list of pending packets is a class attribute shared by all factories until their first flush, and flushing while disconnected discards; proved: nothing invented; nothing lost while flushes happen only when connected; with one factory exactly once and in order"
  },
  {
   "property": "C79",
   "status": "partial",
   "theorems": [
    "Appdash.Py.python_baggage_fails",
    "Appdash.Py.python_tag_fails",
    "Appdash.Py.python_unsampled_partial",
    "Appdash.Py.python_recorded_partial"
   ],
   "note": "the full statement RecordsEverything is false of the code: a misspelt attribute makes any baggage raise, and a tag that is no string raises; proved for spans without baggage whose tags are strings"
  },
  {
   "property": "C80",
   "status": "proved",
   "theorems": [
    "Appdash.Py.python_name_read",
    "Appdash.Py.python_msg_read",
    "Appdash.Py.python_log_read",
    "Appdash.Py.python_timespan_read",
    "Appdash.Py.python_sql_read"
   ],
   "note": "times enter as the text that timeString returned and the time that Go parses from it"
  },
  {
   "property": "C81",
   "status": "partial",
   "theorems": [
    "Appdash.Py.python_server_event_not_read",
    "Appdash.Py.python_client_event_not_read",
    "Appdash.Py.python_server_event_partial",
    "Appdash.Py.python_client_event_partial",
    "Appdash.Py.python_response_overwrites_partial",
    "Appdash.Py.python_http_carries_partial"
   ],
   "note": "the full statements ServerEventRead and ClientEventRead are false of the code: the field names differ from Go's; proved: Go reads nothing at all from them, without an error, response items replace request items, and route, user and times are sent unchanged under other names"
  },
  {
   "property": "C82",
   "status": "proved",
   "theorems": [
    "Appdash.json_text_roundtrip",
    "Appdash.json_string_roundtrip",
    "Appdash.json_grammar_read",
    "Appdash.exportText_isExport",
    "Appdash.parse_isExport",
    "Appdash.upload_text_reproduces",
    "Appdash.page_text_reproduces",
    "Appdash.exportText_sample",
    "Appdash.upload_subtree_text_reproduces",
    "Appdash.upload_any_body",
    "Appdash.export_shows",
    "Appdash.export_form"
   ],
   "note": "the text syntax of encoding/json is modelled, not assumed"
  },
  {
   "property": "C83",
   "status": "proved",
   "theorems": [
    "Appdash.url_parts",
    "Appdash.query_settings",
    "Appdash.permalink_shows_same",
    "Appdash.span_page_true_root",
    "Appdash.permalink_keeps_existing",
    "Appdash.permalink_cut",
    "Appdash.whole_link_same",
    "Appdash.visit_changes_only_link",
    "Appdash.sampleFlate_sound"
   ],
   "note": "the compression library is a parameter, assumed to invert itself; framing, base64url, query strings and routing are modelled"
  },
  {
   "property": "C84",
   "status": "proved",
   "theorems": [
    "Appdash.query_settings",
    "Appdash.aggregate_selection",
    "Appdash.selection_texts",
    "Appdash.aggregate_all",
    "Appdash.aggregate_bad_id",
    "Appdash.aggregate_twice",
    "Appdash.show_ids",
    "Appdash.view_modes"
   ],
   "note": "aggregate_twice shows that the IDs must be distinct"
  },
  {
   "property": "C85",
   "status": "proved",
   "theorems": [
    "Appdash.dashboard_answers",
    "Appdash.range_end_read",
    "Appdash.row_links_to",
    "Appdash.query_settings",
    "Appdash.row_link",
    "Appdash.row_link_empty",
    "Appdash.dashboard_rows",
    "Appdash.dashboard_range",
    "Appdash.dashboard_no_range",
    "Appdash.dashboard_bad_range",
    "Appdash.dashboard_range_overflow",
    "Appdash.dashboard_shows"
   ],
   "note": "the aggregator behind the page is a parameter; row_link_empty and dashboard_range_overflow show that the hypotheses are needed"
  },
  {
   "property": "C86",
   "status": "proved",
   "theorems": [
    "Appdash.upload_selection",
    "Appdash.exports_text",
    "Appdash.exports_form"
   ],
   "note": "for every JSON text of the list, by the grammar of JSON"
  },
  {
   "property": "C87",
   "status": "proved",
   "theorems": [
    "Appdash.page_shows_annotations",
    "Appdash.short_table",
    "Appdash.event_shown",
    "Appdash.library_events_shown",
    "Appdash.client_status_shown",
    "Appdash.server_status_shown",
    "Appdash.sql_shown",
    "Appdash.private_field_hidden"
   ],
   "note": "the tables are modelled by their rows; private_field_hidden shows why names must be public"
  },
  {
   "property": "C88",
   "status": "proved",
   "theorems": [
    "Appdash.cancel_reaches",
    "Appdash.cancel_only_running",
    "Appdash.cancel_idle",
    "Appdash.no_request_leak",
    "Appdash.copies_distinct",
    "Appdash.reuse_confuses"
   ],
   "note": "reuse_confuses shows that the hypothesis (no request is sent twice at once) is needed"
  },
  {
   "property": "C89",
   "status": "partial",
   "theorems": [
    "Appdash.cancel_after_return_lost",
    "Appdash.cancel_before_return_partial",
    "Appdash.cancel_after_return_ignored"
   ],
   "note": "false of the code: the transport forgets the copy when RoundTrip returns; cancelling until then works"
  },
  {
   "property": "C90",
   "status": "proved",
   "theorems": [
    "Appdash.middleware_transparent",
    "Appdash.middleware_adds_header"
   ],
   "note": ""
  },
  {
   "property": "C91",
   "status": "partial",
   "theorems": [
    "Appdash.response_without_span",
    "Appdash.response_lacks_span",
    "Appdash.span_in_empty_response_partial",
    "Appdash.hijack_hidden"
   ],
   "note": "false of the code: the header is set after the handler returned, when it is already sent; and Hijacker is hidden"
  },
  {
   "property": "C92",
   "status": "proved",
   "theorems": [
    "Appdash.recording_leaves_headers",
    "Appdash.shared_header_overwritten"
   ],
   "note": "slices with arrays, offsets and capacities; shared_header_overwritten shows that the hypothesis is needed"
  },
  {
   "property": "C93",
   "status": "partial",
   "theorems": [
    "Appdash.second_root_link_lost",
    "Appdash.links_lead_partial",
    "Appdash.root_links_lead_to_trace",
    "Appdash.timeline_links_partial",
    "Appdash.profile_links_partial",
    "Appdash.page_profile_link_partial"
   ],
   "note": "false of the code for a second parentless span of a trace, whose links lead to the whole trace; true for all others"
  },
  {
   "property": "C94",
   "status": "proved",
   "theorems": [
    "Appdash.table_read",
    "Appdash.short_read",
    "Appdash.escaped_read",
    "Appdash.markup_fixed",
    "Appdash.list_texts",
    "Appdash.list_upload",
    "Appdash.script_data"
   ],
   "note": "HTML as templates and html/template write it, read by a small tokenizer after the HTML standard"
  },
  {
   "property": "C95",
   "status": "partial",
   "theorems": [
    "Appdash.image_read",
    "Appdash.names_are_text_false",
    "Appdash.names_are_text_partial"
   ],
   "note": "false of the code: the script passes the name to html(), so a name like <img ...> becomes an element; true for names without < and &"
  },
  {
   "property": "C96",
   "status": "partial",
   "theorems": [
    "Appdash.menu_ends_iff",
    "Appdash.menu_follows_links",
    "Appdash.menu_exact_false",
    "Appdash.menu_endless",
    "Appdash.orphan_not_hidden",
    "Appdash.menu_exact_partial",
    "Appdash.filter_exact_partial",
    "Appdash.fuzzy_filter_partial",
    "Appdash.strict_filter_iff",
    "Appdash.strict_filter",
    "Appdash.colon_filter_fuzzy"
   ],
   "note": "false of the code: the script never ends on a trace whose root claims a span below it as its parent, and the root's entries miss spans whose parent was never collected; true for all other stored traces"
  },
  {
   "property": "C97",
   "status": "partial",
   "theorems": [
    "Appdash.delete_after_false",
    "Appdash.restored_never_deleted",
    "Appdash.restart_restores",
    "Appdash.serve_as_recent_partial",
    "Appdash.serve_deletes_old_partial",
    "Appdash.delete_after_partial"
   ],
   "note": "false of the code: a trace read from the store file is not known to the RecentStore, so without a new span it is never deleted, whatever its age; true for traces that were not read from the file or were deleted since"
  },
  {
   "property": "C98",
   "status": "proved",
   "theorems": [
    "Appdash.shared_errors",
    "Appdash.shared_errors_any_time",
    "Appdash.shared_errors_logged",
    "Appdash.shared_errors_collected",
    "Appdash.shared_annotations_sent",
    "Appdash.shared_calls_return"
   ],
   "note": ""
  },
  {
   "property": "C99",
   "status": "partial",
   "theorems": [
    "Appdash.shared_events_false",
    "Appdash.shared_events_lost_false",
    "Appdash.shared_finish_twice",
    "Appdash.shared_event_lost",
    "Appdash.shared_exclusive_partial",
    "Appdash.shared_unfinished_partial",
    "Appdash.shared_owner_partial"
   ],
   "note": "false of the code: Event and Finish use no lock, so two calls of Event can lose an event without an error, and two calls of Finish can both send; true if these calls exclude each other, in particular if one goroutine makes them all"
  }
 ]
}