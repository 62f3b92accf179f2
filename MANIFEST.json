{
 "claims": [
  {
   "property": "C01",
   "status": "proved",
   "theorems": [
    "Hdtn.Sdnv.C01_sdnv64_round_trip",
    "Hdtn.Sdnv.C01_sdnv32_round_trip"
   ],
   "note": "Portable routines; the accelerated ones by C03."
  },
  {
   "property": "C02",
   "status": "proved",
   "theorems": [
    "Hdtn.Sdnv.C02_decode64_success_iff",
    "Hdtn.Sdnv.C02_decode64_notEnough_iff",
    "Hdtn.Sdnv.C02_decode64_invalid_iff",
    "Hdtn.Sdnv.C02_decode32_success_iff",
    "Hdtn.Sdnv.C02_decode32_notEnough_iff"
   ],
   "note": "'Not enough' characterised exactly as fewer than ten (five) bytes all with the continuation bit."
  },
  {
   "property": "C03",
   "status": "partial",
   "theorems": [
    "Hdtn.Sdnv.C03_encode64_agree",
    "Hdtn.Sdnv.C03_encode64_stays_in_ten_bytes",
    "Hdtn.Sdnv.C03_encode32_agree",
    "Hdtn.Sdnv.C03_decode64_agree",
    "Hdtn.Sdnv.C03_decode32_agree",
    "Hdtn.Sdnv.C03_array_agree_partial",
    "Hdtn.Sdnv.C03_array_undefined"
   ],
   "note": "Complete for single values. Array decoder: agreement proved except on buffers with 32 consecutive continuation bytes, where the accelerated code calls find_lsb(0) (undefined behaviour, C03_array_undefined)."
  },
  {
   "property": "C04",
   "status": "proved",
   "theorems": [
    "Hdtn.Sdnv.C04_array_decode_spec",
    "Hdtn.Sdnv.C04_array_decode_complete",
    "Hdtn.Sdnv.C03_array_agree_partial"
   ],
   "note": "Portable array decoder in full; accelerated one by agreement (C03)."
  },
  {
   "property": "C05",
   "status": "proved",
   "theorems": [
    "Hdtn.Cbor.C05_round_trip",
    "Hdtn.Cbor.C05_decode_iff",
    "Hdtn.Cbor.C05_decode_fails_iff",
    "Hdtn.Cbor.C05_decode_rejects",
    "Hdtn.Cbor.C05_decode_agree",
    "Hdtn.Cbor.C05_encode_agree"
   ],
   "note": "Portable and accelerated routines."
  },
  {
   "property": "C06",
   "status": "proved",
   "theorems": [
    "Hdtn.Cbor.C06_two_round_trip",
    "Hdtn.Cbor.C06_two_iff",
    "Hdtn.Cbor.C06_two_bounded",
    "Hdtn.Cbor.C06_array_round_trip",
    "Hdtn.Cbor.C06_array_iff",
    "Hdtn.Cbor.C06_array_too_long",
    "Hdtn.Cbor.C06_array_bounded",
    "Hdtn.Cbor.C06_array_bounded_empty_violated"
   ],
   "note": "Exact characterisation of both deserialisers. The bounded list serialiser given an empty buffer touches one byte outside it (C06_array_bounded_empty_violated)."
  },
  {
   "property": "C07",
   "status": "proved",
   "theorems": [
    "Hdtn.FragmentSet.C07_insert",
    "Hdtn.FragmentSet.C07_insert_is_union",
    "Hdtn.FragmentSet.C07_insert_order_independent",
    "Hdtn.FragmentSet.C07_histories_canonical"
   ],
   "note": "For non-empty ranges that end below 2^64-1."
  },
  {
   "property": "C08",
   "status": "proved",
   "theorems": [
    "Hdtn.FragmentSet.C08_containsEntirely",
    "Hdtn.FragmentSet.C08_doesNotContain",
    "Hdtn.FragmentSet.C08_haveOverlap",
    "Hdtn.FragmentSet.C08_getOverlap"
   ],
   "note": ""
  },
  {
   "property": "C09",
   "status": "partial",
   "theorems": [
    "Hdtn.FragmentSet.C09_remove_violated",
    "Hdtn.FragmentSet.C09_remove_exact_partial",
    "Hdtn.FragmentSet.C09_remove_stuck",
    "Hdtn.FragmentSet.C09_remove_single",
    "Hdtn.FragmentSet.C09_remove_empty"
   ],
   "note": "The property is false of the code: witness proved. Exact behaviour proved in both cases."
  },
  {
   "property": "C10",
   "status": "proved",
   "theorems": [
    "Hdtn.FragmentSet.C10_gaps_exact"
   ],
   "note": "For bounds that are non-empty and end below 2^64-1."
  },
  {
   "property": "C100",
   "status": "partial",
   "theorems": [
    "Hdtn.Node.C100_egress",
    "Hdtn.Node.C100_outduct_partial",
    "Hdtn.Node.C100_outduct_violated",
    "Hdtn.Node.C100_disk"
   ],
   "note": "False for what an outduct holds after a change of routes. Proved otherwise."
  },
  {
   "property": "C101",
   "status": "partial",
   "theorems": [
    "Hdtn.Node.C101_memory_partial",
    "Hdtn.Node.C101_memory_violated",
    "Hdtn.Node.C101_given_back_violated"
   ],
   "note": "The documented bound is false; one and a half times the limits is proved, without the bundles that egress gives back, which are not limited."
  },
  {
   "property": "C102",
   "status": "proved",
   "theorems": [
    "Hdtn.Node.C102_way",
    "Hdtn.Node.C102_custody",
    "Hdtn.Node.C102_enforced"
   ],
   "note": ""
  },
  {
   "property": "C103",
   "status": "partial",
   "theorems": [
    "Hdtn.Node.C103_account",
    "Hdtn.Node.C103_quiet",
    "Hdtn.Node.C103_delivered",
    "Hdtn.Node.C103_lost_partial",
    "Hdtn.Node.C103_write_violated",
    "Hdtn.Node.C103_queue_violated"
   ],
   "note": "The account is proved for all runs, and that nothing is lost for runs without failures of messages and of the disk. False when a write fails or a queue is full: no error is reported."
  },
  {
   "property": "C104",
   "status": "partial",
   "theorems": [
    "Hdtn.Node.C104_no_fault",
    "Hdtn.Node.C104_quiet",
    "Hdtn.Node.C104_stuck_partial",
    "Hdtn.Node.C104_forever_violated",
    "Hdtn.Node.C104_closed_violated"
   ],
   "note": "False for the way through storage when a message cannot be sent. Proved otherwise."
  },
  {
   "property": "C105",
   "status": "partial",
   "theorems": [
    "Hdtn.Node.C105_ingress",
    "Hdtn.Node.C105_storage_partial",
    "Hdtn.Node.C105_down",
    "Hdtn.Node.C105_sends",
    "Hdtn.Node.C105_answers",
    "Hdtn.Node.C105_failed_violated",
    "Hdtn.Node.C105_no_outduct_violated",
    "Hdtn.Node.C105_cut_violated",
    "Hdtn.Node.C105_early_violated"
   ],
   "note": "False for bundles given back to storage, bundles cut through without an outduct and link changes that come early. Proved otherwise."
  },
  {
   "property": "C106",
   "status": "partial",
   "theorems": [
    "Hdtn.Node.C106_priority_partial",
    "Hdtn.Node.C106_sends",
    "Hdtn.Node.C106_priority_violated"
   ],
   "note": "False for bundles behind the first of the queue. Proved for the first of the queue and all on the disk."
  },
  {
   "property": "C107",
   "status": "proved",
   "theorems": [
    "Hdtn.Node.C107_turns"
   ],
   "note": ""
  },
  {
   "property": "C108",
   "status": "proved",
   "theorems": [
    "Hdtn.Router.C108_up",
    "Hdtn.Router.C108_news",
    "Hdtn.Router.C108_known"
   ],
   "note": ""
  },
  {
   "property": "C109",
   "status": "partial",
   "theorems": [
    "Hdtn.Router.C109_follows_partial",
    "Hdtn.Router.C109_touching_violated",
    "Hdtn.Router.C109_overlapping_violated",
    "Hdtn.Router.C109_early_violated"
   ],
   "note": "False for contacts that touch or overlap and when a plan is loaded while a handler waits. Proved otherwise."
  },
  {
   "property": "C11",
   "status": "proved",
   "theorems": [
    "Hdtn.LtpReport.C11_report_claims_exactly",
    "Hdtn.LtpReport.C11_split",
    "Hdtn.LtpReport.C11_split_zero",
    "Hdtn.LtpReport.C11_split_no_claims"
   ],
   "note": ""
  },
  {
   "property": "C110",
   "status": "proved",
   "theorems": [
    "Hdtn.Router.C110_up",
    "Hdtn.Router.C110_down",
    "Hdtn.Router.C110_same",
    "Hdtn.Router.C110_load",
    "Hdtn.Router.C110_multigraph"
   ],
   "note": "For the default search; with multigraph routing the next hop is what C80 tells of."
  },
  {
   "property": "C111",
   "status": "partial",
   "theorems": [
    "Hdtn.Router.C111_avoided_partial",
    "Hdtn.Router.C111_failed_contact_violated"
   ],
   "note": "False for a contact that starts while its link is down. Proved for a link that goes down."
  },
  {
   "property": "C112",
   "status": "partial",
   "theorems": [
    "Hdtn.Router.C112_hold_partial",
    "Hdtn.Router.C112_released",
    "Hdtn.Router.C112_repeated_violated",
    "Hdtn.Router.C112_other_violated"
   ],
   "note": "False for repeated reports. Proved otherwise."
  },
  {
   "property": "C113",
   "status": "partial",
   "theorems": [
    "Hdtn.Router.C113_told_partial",
    "Hdtn.Router.C113_reload_violated",
    "Hdtn.Router.C113_api_violated"
   ],
   "note": "False when a plan is loaded during a contact and for links set by a user. Proved for one plan."
  },
  {
   "property": "C114",
   "status": "partial",
   "theorems": [
    "Hdtn.FileTransfer.C114_files_arrive_partial",
    "Hdtn.FileTransfer.C114_large_file_violated"
   ],
   "note": "Proved for files up to 8000000000 bytes and pieces up to 2000000000; false behind that."
  },
  {
   "property": "C115",
   "status": "partial",
   "theorems": [
    "Hdtn.FileTransfer.C115_sends_all_partial",
    "Hdtn.FileTransfer.C115_payload_size_partial",
    "Hdtn.FileTransfer.C115_zero_limit_violated",
    "Hdtn.FileTransfer.C115_large_limit_violated",
    "Hdtn.FileTransfer.C115_unreadable_violated",
    "Hdtn.FileTransfer.C115_long_path_violated",
    "Hdtn.FileTransfer.C115_payload_limit_violated"
   ],
   "note": "Proved for limits from 1 to 2^32 - 1, readable files and paths up to 255 bytes; false for others."
  },
  {
   "property": "C116",
   "status": "partial",
   "theorems": [
    "Hdtn.FileTransfer.C116_no_crash_partial",
    "Hdtn.FileTransfer.C116_path_overread_violated",
    "Hdtn.FileTransfer.C116_data_overread_violated",
    "Hdtn.FileTransfer.C116_resized_file_violated"
   ],
   "note": "Proved for payloads as long as they say with one size for each path; false for others."
  },
  {
   "property": "C117",
   "status": "proved",
   "theorems": [
    "Hdtn.FileTransfer.C117_existing_files_kept",
    "Hdtn.FileTransfer.C117_not_saving"
   ],
   "note": ""
  },
  {
   "property": "C118",
   "status": "partial",
   "theorems": [
    "Hdtn.FileTransfer.C118_only_named_partial",
    "Hdtn.FileTransfer.C118_any_path_violated"
   ],
   "note": "Only named files are created; the path is not checked."
  },
  {
   "property": "C119",
   "status": "proved",
   "theorems": [
    "Hdtn.Encap.C119_roundtrip",
    "Hdtn.Encap.C119_idle",
    "Hdtn.Encap.C119_refused",
    "Hdtn.Encap.C119_other_kind"
   ],
   "note": ""
  },
  {
   "property": "C12",
   "status": "proved",
   "theorems": [
    "Hdtn.LtpReport.C12_report_added",
    "Hdtn.LtpReport.C12_acked_is_union",
    "Hdtn.LtpReport.C12_acked_order_independent",
    "Hdtn.LtpReport.C12_wrapping_claim_violated",
    "Hdtn.LtpReport.C12_resend_gaps",
    "Hdtn.LtpReport.C12_needing_resent",
    "Hdtn.LtpReport.C12_reduce_last",
    "Hdtn.LtpReport.C12_reduce"
   ],
   "note": "For claims that do not run past 2^64; a claim that does corrupts the record (C12_wrapping_claim_violated)."
  },
  {
   "property": "C120",
   "status": "partial",
   "theorems": [
    "Hdtn.Encap.C120_in_order_partial",
    "Hdtn.Encap.C120_all_partial",
    "Hdtn.Encap.C120_all_manual_partial",
    "Hdtn.Encap.C120_reconnect",
    "Hdtn.Encap.C120_idle_violated",
    "Hdtn.Encap.C120_invalid_violated",
    "Hdtn.Encap.C120_large_violated"
   ],
   "note": "Proved for streams of packets without idle packets; false for idle packets, invalid headers and payloads of four gigabytes."
  },
  {
   "property": "C121",
   "status": "partial",
   "theorems": [
    "Hdtn.Encap.C121_sizes",
    "Hdtn.Encap.C121_no_gap",
    "Hdtn.Encap.C121_short_violated",
    "Hdtn.Encap.C121_no_limit_violated"
   ],
   "note": "What is handed over is right; the limit for memory is not kept."
  },
  {
   "property": "C122",
   "status": "partial",
   "theorems": [
    "Hdtn.Source.C122_conserved",
    "Hdtn.Source.C122_kept_or_sent_partial",
    "Hdtn.Source.C122_secured_violated"
   ],
   "note": "Proved without a security policy; with one, failed bundles are lost."
  },
  {
   "property": "C123",
   "status": "partial",
   "theorems": [
    "Hdtn.Source.C123_all_sent_partial",
    "Hdtn.Source.C123_race_violated"
   ],
   "note": "False when a failure is reported between two checks. Proved otherwise."
  },
  {
   "property": "C124",
   "status": "partial",
   "theorems": [
    "Hdtn.Source.C124_pipeline",
    "Hdtn.Source.C124_stuck_violated"
   ],
   "note": "The bound is proved; false that a refused bundle is tried again."
  },
  {
   "property": "C125",
   "status": "partial",
   "theorems": [
    "Hdtn.Source.C125_distinct_partial",
    "Hdtn.Source.C125_clock_back_violated",
    "Hdtn.Source.C125_restart_violated"
   ],
   "note": "Proved for clocks that are not set back and one run; false otherwise."
  },
  {
   "property": "C126",
   "status": "partial",
   "theorems": [
    "Hdtn.Source.C126_one_for_one",
    "Hdtn.Source.C126_hang_violated"
   ],
   "note": "The count is proved; false that failed bundles are sent again."
  },
  {
   "property": "C127",
   "status": "partial",
   "theorems": [
    "Hdtn.Source.C127_answers6_partial",
    "Hdtn.Source.C127_answers7_partial",
    "Hdtn.Source.C127_hops",
    "Hdtn.Source.C127_any_destination_violated"
   ],
   "note": "Proved for version 6; for version 7 false but for the hop count."
  },
  {
   "property": "C128",
   "status": "partial",
   "theorems": [
    "Hdtn.Source.C128_all_received_partial",
    "Hdtn.Source.C128_repeated_violated"
   ],
   "note": "Proved without aggregate signals; false with repeated ones."
  },
  {
   "property": "C129",
   "status": "partial",
   "theorems": [
    "Hdtn.Sink.C129_delivered_partial",
    "Hdtn.Sink.C129_others",
    "Hdtn.Sink.C129_administrative_violated"
   ],
   "note": "Proved without fragments; false for administrative records."
  },
  {
   "property": "C13",
   "status": "proved",
   "theorems": [
    "Hdtn.LtpReceiver.C13_delivery",
    "Hdtn.LtpReceiver.C13_delivery_moment"
   ],
   "note": "For red parts of at least one byte within the size limit, in memory; storing received data in files is not modelled."
  },
  {
   "property": "C130",
   "status": "partial",
   "theorems": [
    "Hdtn.Sink.C130_fragments_partial"
   ],
   "note": "Proved without custody, for bundles whose blocks fit into the buffer."
  },
  {
   "property": "C131",
   "status": "partial",
   "theorems": [
    "Hdtn.Sink.C131_signalled_partial",
    "Hdtn.Sink.C131_pending_partial",
    "Hdtn.Sink.C131_sent_partial",
    "Hdtn.Sink.C131_not_asked",
    "Hdtn.Sink.C131_dropped_violated",
    "Hdtn.Sink.C131_lost_violated"
   ],
   "note": "Proved as long as no more than 2000 bundles wait; false beyond, and false that no bundle is lost."
  },
  {
   "property": "C132",
   "status": "partial",
   "theorems": [
    "Hdtn.Sink.C132_echo_partial",
    "Hdtn.Sink.C132_cannot_send",
    "Hdtn.Sink.C132_forever_violated",
    "Hdtn.Sink.C132_identity_violated"
   ],
   "note": "Proved for whole bundles with short flags; false that bundles end, and that answers can be told apart."
  },
  {
   "property": "C133",
   "status": "partial",
   "theorems": [
    "Hdtn.Sink.C133_delivered_partial",
    "Hdtn.Sink.C133_others",
    "Hdtn.Sink.C133_insecure",
    "Hdtn.Sink.C133_hops",
    "Hdtn.Sink.C133_echo_partial",
    "Hdtn.Sink.C133_forever_violated"
   ],
   "note": "Proved for bundles that the security processing leaves as they are; false that bundles end."
  },
  {
   "property": "C134",
   "status": "partial",
   "theorems": [
    "Hdtn.Sink.C134_kept_partial",
    "Hdtn.Sink.C134_pipeline",
    "Hdtn.Sink.C134_awake",
    "Hdtn.Sink.C134_refused_iff",
    "Hdtn.Sink.C134_progress",
    "Hdtn.Sink.C134_alone",
    "Hdtn.Sink.C134_dropped_violated",
    "Hdtn.Sink.C134_asleep_violated",
    "Hdtn.Sink.C134_stuck_violated",
    "Hdtn.Sink.C134_shared_violated"
   ],
   "note": "Conservation and the bound are proved; false for retries, for more than 2000 bundles, and for two receiving threads."
  },
  {
   "property": "C135",
   "status": "partial",
   "theorems": [
    "Hdtn.FileMem.C135_read_back_partial",
    "Hdtn.FileMem.C135_success",
    "Hdtn.FileMem.C135_error_violated"
   ],
   "note": "Proved for histories without errors of the disk; false with one."
  },
  {
   "property": "C136",
   "status": "partial",
   "theorems": [
    "Hdtn.FileMem.C136_at_most_once",
    "Hdtn.FileMem.C136_called_partial",
    "Hdtn.FileMem.C136_drains",
    "Hdtn.FileMem.C136_error_violated",
    "Hdtn.FileMem.C136_refused_violated",
    "Hdtn.FileMem.C136_wrap_violated"
   ],
   "note": "At most once for all histories; called, without errors. False with errors, for refused requests, and beyond 64 bits."
  },
  {
   "property": "C137",
   "status": "partial",
   "theorems": [
    "Hdtn.FileMem.C137_apart",
    "Hdtn.FileMem.C137_held",
    "Hdtn.FileMem.C137_new",
    "Hdtn.FileMem.C137_deleted",
    "Hdtn.FileMem.C137_gone",
    "Hdtn.FileMem.C137_twice_violated"
   ],
   "note": "Proved for all histories; but a block can be deleted twice with success."
  },
  {
   "property": "C138",
   "status": "partial",
   "theorems": [
    "Hdtn.FileMem.C138_ceil",
    "Hdtn.FileMem.C138_alloc",
    "Hdtn.FileMem.C138_resize",
    "Hdtn.FileMem.C138_within",
    "Hdtn.FileMem.C138_shrink_violated",
    "Hdtn.FileMem.C138_leak_violated"
   ],
   "note": "Sizes are proved; false that a failed call leaves no block, and that the size returned is that of the block."
  },
  {
   "property": "C139",
   "status": "partial",
   "theorems": [
    "Hdtn.Stream.C139_whole_partial",
    "Hdtn.Stream.C139_overrun_violated"
   ],
   "note": "Proved if no bundle is overwritten between the question for the length and the copy; false otherwise."
  },
  {
   "property": "C14",
   "status": "partial",
   "theorems": [
    "Hdtn.LtpReceiver.C14_safe_partial",
    "Hdtn.LtpReceiver.C14_wrap_violated",
    "Hdtn.LtpReceiver.C14_missing_data_violated"
   ],
   "note": "False for segments whose end exceeds 64 bits and for segments reported without data. Proved for all others."
  },
  {
   "property": "C140",
   "status": "partial",
   "theorems": [
    "Hdtn.Stream.C140_nothing_lost",
    "Hdtn.Stream.C140_drains",
    "Hdtn.Stream.C140_last_violated",
    "Hdtn.Stream.C140_zero_violated"
   ],
   "note": "Nothing is lost on the way; false that the last packets are sent."
  },
  {
   "property": "C141",
   "status": "partial",
   "theorems": [
    "Hdtn.Stream.C141_version_partial",
    "Hdtn.Stream.C141_version_violated"
   ],
   "note": "Proved for versions 0 to 2; false for version 3."
  },
  {
   "property": "C142",
   "status": "partial",
   "theorems": [
    "Hdtn.Stream.C142_receive",
    "Hdtn.Stream.C142_exact",
    "Hdtn.Stream.C142_malformed_violated"
   ],
   "note": "Proved for payloads made of packets; false for all others."
  },
  {
   "property": "C143",
   "status": "partial",
   "theorems": [
    "Hdtn.Stream.C143_stream_partial"
   ],
   "note": "Proved if no bundle is overwritten between the question for the length and the copy."
  },
  {
   "property": "C144",
   "status": "proved",
   "theorems": [
    "Hdtn.DelaySim.C144_delayed",
    "Hdtn.DelaySim.C144_accepted"
   ],
   "note": "For rings with two places or more; with fewer no packet is accepted."
  },
  {
   "property": "C145",
   "status": "proved",
   "theorems": [
    "Hdtn.DelaySim.C145_not_before",
    "Hdtn.DelaySim.C145_begins",
    "Hdtn.DelaySim.C145_once",
    "Hdtn.DelaySim.C145_back",
    "Hdtn.DelaySim.C145_never"
   ],
   "note": ""
  },
  {
   "property": "C146",
   "status": "partial",
   "theorems": [
    "Hdtn.DelaySim.C146_capacity",
    "Hdtn.DelaySim.C146_no_stall",
    "Hdtn.DelaySim.C146_drains",
    "Hdtn.DelaySim.C146_one_violated"
   ],
   "note": "Proved for rings with two places or more; false with one."
  },
  {
   "property": "C147",
   "status": "partial",
   "theorems": [
    "Hdtn.LtpSessions.C147_once_partial",
    "Hdtn.LtpSessions.C147_success",
    "Hdtn.LtpSessions.C147_back",
    "Hdtn.LtpSessions.C147_told",
    "Hdtn.LtpSessions.C147_completed_violated",
    "Hdtn.LtpSessions.C147_disk_violated",
    "Hdtn.LtpSessions.C147_empty_violated"
   ],
   "note": "Proved for blocks in memory that are not empty; false otherwise, and false that a bundle told complete is not returned."
  },
  {
   "property": "C148",
   "status": "partial",
   "theorems": [
    "Hdtn.LtpSessions.C148_nothing_left_partial",
    "Hdtn.LtpSessions.C148_bound",
    "Hdtn.LtpSessions.C148_ends_partial",
    "Hdtn.LtpSessions.C148_drains_partial",
    "Hdtn.LtpSessions.C148_stall_violated"
   ],
   "note": "Proved for blocks in memory; false with the disk when reads fail."
  },
  {
   "property": "C149",
   "status": "partial",
   "theorems": [
    "Hdtn.LtpSessions.C149_urgent_first_partial",
    "Hdtn.LtpSessions.C149_order_partial"
   ],
   "note": "Proved for blocks in memory."
  },
  {
   "property": "C15",
   "status": "partial",
   "theorems": [
    "Hdtn.LtpRng.C15_sessions_distinct",
    "Hdtn.LtpRng.C15_engine_index",
    "Hdtn.LtpRng.C15_ping_number_reserved",
    "Hdtn.LtpRng.C15_ping_test_partial",
    "Hdtn.LtpRng.C15_ping_confusion_violated",
    "Hdtn.LtpRng.C15_serial"
   ],
   "note": "Distinctness, the engine index and the reserved ping number are proved. The test used for ping sessions looks only at the low bits and a generated session can satisfy it (C15_ping_confusion_violated)."
  },
  {
   "property": "C150",
   "status": "partial",
   "theorems": [
    "Hdtn.TcpclV3Link.C150_in_order_partial",
    "Hdtn.TcpclV3Link.C150_complete_partial",
    "Hdtn.TcpclV3Link.C150_arrives_partial",
    "Hdtn.TcpclV3Link.C150_possible_partial",
    "Hdtn.TcpclV3Link.C150_empty_violated"
   ],
   "note": "Proved for histories in which the link connects again only when nothing is unacknowledged; arrival for bundles that are not empty. False for empty bundles."
  },
  {
   "property": "C151",
   "status": "partial",
   "theorems": [
    "Hdtn.TcpclV3Link.C151_reported_partial",
    "Hdtn.TcpclV3Link.C151_same_bundle_partial"
   ],
   "note": "Proved for histories in which the link connects again only when nothing is unacknowledged; false otherwise (C153)."
  },
  {
   "property": "C152",
   "status": "partial",
   "theorems": [
    "Hdtn.TcpclV3Link.C152_accepts_partial",
    "Hdtn.TcpclV3Link.C152_headers_first",
    "Hdtn.TcpclV3Link.C152_limit_violated"
   ],
   "note": "Proved with a limit four higher than configured; false for the configured one."
  },
  {
   "property": "C153",
   "status": "partial",
   "theorems": [
    "Hdtn.TcpclV3Link.C153_no_foreign_data_partial",
    "Hdtn.TcpclV3Link.C153_false_report_violated",
    "Hdtn.TcpclV3Link.C153_stuck_violated",
    "Hdtn.TcpclV3Link.C153_returned_violated",
    "Hdtn.TcpclV3Link.C153_dropped_violated",
    "Hdtn.TcpclV3Link.C153_refused_violated"
   ],
   "note": "False; only shown that no bundle comes back with the user data of another."
  },
  {
   "property": "C154",
   "status": "proved",
   "theorems": [
    "Hdtn.LtpUdpManager.C154_to_receiver",
    "Hdtn.LtpUdpManager.C154_to_sender",
    "Hdtn.LtpUdpManager.C154_indices",
    "Hdtn.LtpUdpManager.C154_in_order"
   ],
   "note": ""
  },
  {
   "property": "C155",
   "status": "partial",
   "theorems": [
    "Hdtn.LtpUdpManager.C155_known_types_partial",
    "Hdtn.LtpUdpManager.C155_unknown_type_violated",
    "Hdtn.LtpUdpManager.C155_undefined_violated",
    "Hdtn.LtpUdpManager.C155_stale_violated"
   ],
   "note": "Proved for datagrams whose first byte is a type of LTP; false otherwise, and false for cut ones as to the choice of the engine."
  },
  {
   "property": "C156",
   "status": "partial",
   "theorems": [
    "Hdtn.LtpUdpManager.C156_add_induct",
    "Hdtn.LtpUdpManager.C156_add_outduct_partial",
    "Hdtn.LtpUdpManager.C156_remove",
    "Hdtn.LtpUdpManager.C156_readd_violated"
   ],
   "note": "Adding outducts: proved as long as none was removed; false afterwards."
  },
  {
   "property": "C157",
   "status": "partial",
   "theorems": [
    "Hdtn.LtpSource.C157_bound_partial",
    "Hdtn.LtpSource.C157_accepts_partial",
    "Hdtn.LtpSource.C157_limit_violated",
    "Hdtn.LtpSource.C157_race_violated",
    "Hdtn.LtpSource.C157_leak_violated",
    "Hdtn.LtpSource.C157_foreign_violated"
   ],
   "note": "Proved with a limit one higher, and acceptance for an engine at rest that gave nothing up; false otherwise."
  },
  {
   "property": "C158",
   "status": "partial",
   "theorems": [
    "Hdtn.LtpSource.C158_unacked",
    "Hdtn.LtpSource.C158_sent",
    "Hdtn.LtpSource.C158_answered",
    "Hdtn.LtpSource.C158_wraps_violated"
   ],
   "note": "Proved between calls; requests that the engine gives up count as unacknowledged. False during a call."
  },
  {
   "property": "C159",
   "status": "proved",
   "theorems": [
    "Hdtn.LtpSource.C159_done",
    "Hdtn.LtpSource.C159_gives_up",
    "Hdtn.LtpSource.C159_ends"
   ],
   "note": "For numbers below 2^64 - 1."
  },
  {
   "property": "C16",
   "status": "proved",
   "theorems": [
    "Hdtn.LtpSender.C16_first_pass",
    "Hdtn.LtpSender.C16_covers_block",
    "Hdtn.LtpSender.C16_red_too_long_violated"
   ],
   "note": "The red part must be a part of the block, which the engine does not check (C16_red_too_long_violated)."
  },
  {
   "property": "C160",
   "status": "partial",
   "theorems": [
    "Hdtn.EncapDuct.C160_once",
    "Hdtn.EncapDuct.C160_in_order_partial",
    "Hdtn.EncapDuct.C160_arrives_partial",
    "Hdtn.EncapDuct.C160_no_stall",
    "Hdtn.EncapDuct.C160_drains",
    "Hdtn.EncapDuct.C160_forever_violated"
   ],
   "note": "Answered once, in order, and draining: proved. Delivery: for bundles below 4 GiB, exact delivery for one connection. Recovery after a failed write: false."
  },
  {
   "property": "C161",
   "status": "partial",
   "theorems": [
    "Hdtn.EncapDuct.C161_accepts_partial",
    "Hdtn.EncapDuct.C161_counts",
    "Hdtn.EncapDuct.C161_unacked",
    "Hdtn.EncapDuct.C161_limit_violated",
    "Hdtn.EncapDuct.C161_failed_violated"
   ],
   "note": "Proved with a limit four higher than configured and bundles below 4 GiB; false for the configured one; failed bundles count as unacknowledged for ever."
  },
  {
   "property": "C162",
   "status": "partial",
   "theorems": [
    "Hdtn.EncapDuct.C162_conserved_partial",
    "Hdtn.EncapDuct.C162_in_order_partial",
    "Hdtn.EncapDuct.C162_takes",
    "Hdtn.EncapDuct.C162_lost_violated",
    "Hdtn.EncapDuct.C162_forever_violated",
    "Hdtn.EncapDuct.C162_asleep_violated"
   ],
   "note": "Proved as long as no write fails and for bundles that are not empty; false otherwise."
  },
  {
   "property": "C163",
   "status": "partial",
   "theorems": [
    "Hdtn.LtpIpc.C163_in_order_partial",
    "Hdtn.LtpIpc.C163_only_sent",
    "Hdtn.LtpIpc.C163_places",
    "Hdtn.LtpIpc.C163_drains_partial",
    "Hdtn.LtpIpc.C163_leak_violated",
    "Hdtn.LtpIpc.C163_overwritten_violated"
   ],
   "note": "Proved for packets that the receiver does not refuse, and that the conditions called fatal never occur; false for refused packets and for packets that do not fit."
  },
  {
   "property": "C164",
   "status": "partial",
   "theorems": [
    "Hdtn.LtpIpc.C164_lets_in",
    "Hdtn.LtpIpc.C164_own_sessions",
    "Hdtn.LtpIpc.C164_refused",
    "Hdtn.LtpIpc.C164_undefined_violated",
    "Hdtn.LtpIpc.C164_stale_violated"
   ],
   "note": "Proved for well-formed segments, short packets and unknown types below 32; false otherwise."
  },
  {
   "property": "C165",
   "status": "partial",
   "theorems": [
    "Hdtn.EncapRepeater.C165_partial",
    "Hdtn.EncapRepeater.C165_whole",
    "Hdtn.EncapRepeater.C165_bytes",
    "Hdtn.EncapRepeater.C165_came",
    "Hdtn.EncapRepeater.C165_stream",
    "Hdtn.EncapRepeater.C165_error_violated"
   ],
   "note": "Unchanged, in order and once without failed writes; with them the bytes that go out are still the first of those that came, and only the last write can be cut. False after a failed write: nothing is ever written again."
  },
  {
   "property": "C166",
   "status": "partial",
   "theorems": [
    "Hdtn.EncapRepeater.C166_bound_partial",
    "Hdtn.EncapRepeater.C166_bound_violated",
    "Hdtn.EncapRepeater.C166_size_violated",
    "Hdtn.EncapRepeater.C166_awake",
    "Hdtn.EncapRepeater.C166_going_partial",
    "Hdtn.EncapRepeater.C166_drain_partial",
    "Hdtn.EncapRepeater.C166_stuck_violated"
   ],
   "note": "At most five wait if the stream is connected once; reading is never forgotten; everything drains without failed writes. False: configured size unused, no bound with reconnections, stuck after a failed write."
  },
  {
   "property": "C167",
   "status": "partial",
   "theorems": [
    "Hdtn.OutMgr.C167_valid_partial",
    "Hdtn.OutMgr.C167_overflow_violated",
    "Hdtn.OutMgr.C167_loaded",
    "Hdtn.OutMgr.C167_seen",
    "Hdtn.OutMgr.C167_failed"
   ],
   "note": "Proved for sizes of bundles below 2^63; false above."
  },
  {
   "property": "C168",
   "status": "partial",
   "theorems": [
    "Hdtn.OutMgr.C168_route",
    "Hdtn.OutMgr.C168_reroute",
    "Hdtn.OutMgr.C168_no_route",
    "Hdtn.OutMgr.C168_forward",
    "Hdtn.OutMgr.C168_limit_partial",
    "Hdtn.OutMgr.C168_limit_violated",
    "Hdtn.OutMgr.C168_capabilities",
    "Hdtn.OutMgr.C168_listed"
   ],
   "note": "Proved; only the limit is passed by one."
  },
  {
   "property": "C169",
   "status": "proved",
   "theorems": [
    "Hdtn.LtpEncap.C169_taken",
    "Hdtn.LtpEncap.C169_written",
    "Hdtn.LtpEncap.C169_connections",
    "Hdtn.LtpEncap.C169_current",
    "Hdtn.LtpEncap.C169_received"
   ],
   "note": "The assumption on the order of the handlers is stated with the model; packets of 1 to 4294967287 bytes."
  },
  {
   "property": "C17",
   "status": "partial",
   "theorems": [
    "Hdtn.LtpSender.C17_success_sound_partial",
    "Hdtn.LtpSender.C17_once",
    "Hdtn.LtpSender.C17_success_exact",
    "Hdtn.LtpSender.C17_wrap_violated",
    "Hdtn.LtpSender.C17_outside_claims_violated",
    "Hdtn.LtpSender.C17_empty_block_violated"
   ],
   "note": "False for claims that end beyond 2^64, for claims outside the red part (never completes) and for the empty block. Soundness is proved for all other reports, exactness for reports about the red part."
  },
  {
   "property": "C170",
   "status": "partial",
   "theorems": [
    "Hdtn.LtpEncap.C170_room",
    "Hdtn.LtpEncap.C170_takes",
    "Hdtn.LtpEncap.C170_going_partial",
    "Hdtn.LtpEncap.C170_drain_partial",
    "Hdtn.LtpEncap.C170_resumes_partial",
    "Hdtn.LtpEncap.C170_stuck_violated",
    "Hdtn.LtpEncap.C170_stuck_reached"
   ],
   "note": "Room: proved. Written in the end: proved as long as the stream is not lost, or if fewer than five calls wait and another follows; false otherwise."
  },
  {
   "property": "C171",
   "status": "partial",
   "theorems": [
    "Hdtn.UdpBatch.C171_once",
    "Hdtn.UdpBatch.C171_sent",
    "Hdtn.UdpBatch.C171_success_partial",
    "Hdtn.UdpBatch.C171_reliable",
    "Hdtn.UdpBatch.C171_no_false_success",
    "Hdtn.UdpBatch.C171_holes_violated"
   ],
   "note": "Proved for packets with at least one buffer; success is never reported wrongly. False for packets without buffers: failure reported."
  },
  {
   "property": "C172",
   "status": "partial",
   "theorems": [
    "Hdtn.UdpBatch.C172_going_partial",
    "Hdtn.UdpBatch.C172_drain_partial",
    "Hdtn.UdpBatch.C172_empty_violated"
   ],
   "note": "Proved for batches with packets that have buffers; false for a batch without data."
  },
  {
   "property": "C173",
   "status": "partial",
   "theorems": [
    "Hdtn.DirScan.C173_once",
    "Hdtn.DirScan.C173_existing",
    "Hdtn.DirScan.C173_all_partial",
    "Hdtn.DirScan.C173_next",
    "Hdtn.DirScan.C173_wake",
    "Hdtn.DirScan.C173_lost_violated"
   ],
   "note": "Proved: sent files are among the found ones, in order, each once; nothing is left out while the sender begins to wait with at most one file in the list. False otherwise: the first of two files is overwritten and never sent."
  },
  {
   "property": "C174",
   "status": "partial",
   "theorems": [
    "Hdtn.DirScan.C174_stable",
    "Hdtn.DirScan.C174_pending",
    "Hdtn.DirScan.C174_found_partial",
    "Hdtn.DirScan.C174_removed_violated",
    "Hdtn.DirScan.C174_grown_violated"
   ],
   "note": "Proved: only files whose size stayed that of their last change are found, and all that are pending are found after as many timers as the queue is long if their sizes stay. False: a removed file ends the program, a file that grew without an event is never found."
  },
  {
   "property": "C175",
   "status": "proved",
   "theorems": [
    "Hdtn.TlsSender.C175_stream",
    "Hdtn.TlsSender.C175_one_write",
    "Hdtn.TlsSender.C175_going",
    "Hdtn.TlsSender.C175_drain"
   ],
   "note": "Calls made by the callback of an element are taken as made just before the write ends."
  },
  {
   "property": "C176",
   "status": "partial",
   "theorems": [
    "Hdtn.TlsSender.C176_layer_partial",
    "Hdtn.TlsSender.C176_layer_violated",
    "Hdtn.TlsSender.C176_idle"
   ],
   "note": "Proved if nothing is sent for one layer while something for the other is in the queue. False otherwise: the next element is written to the layer of the last."
  },
  {
   "property": "C177",
   "status": "proved",
   "theorems": [
    "Hdtn.HexKey.C177_round_trip",
    "Hdtn.HexKey.C177_text",
    "Hdtn.HexKey.C177_parts",
    "Hdtn.HexKey.C177_exact",
    "Hdtn.HexKey.C177_refused",
    "Hdtn.HexKey.C177_key"
   ],
   "note": "The functions of boost are modelled after their documentation."
  },
  {
   "property": "C178",
   "status": "proved",
   "theorems": [
    "Hdtn.FreeList.C178_fresh",
    "Hdtn.FreeList.C178_safe",
    "Hdtn.FreeList.C178_bound",
    "Hdtn.FreeList.C178_no_leak",
    "Hdtn.FreeList.C178_reuse"
   ],
   "note": "For users who keep to the stated rules; the chain of nodes is a list."
  },
  {
   "property": "C179",
   "status": "partial",
   "theorems": [
    "Hdtn.Recycler.C179_bound",
    "Hdtn.Recycler.C179_conserved",
    "Hdtn.Recycler.C179_accept",
    "Hdtn.Recycler.C179_obtain",
    "Hdtn.Recycler.C179_sign_partial",
    "Hdtn.Recycler.C179_sign_violated"
   ],
   "note": "Proved but for the sign of reuse: a vector with memory and no elements comes from the bin and is empty."
  },
  {
   "property": "C18",
   "status": "proved",
   "theorems": [
    "Hdtn.LtpWire.C18_data_round_trip",
    "Hdtn.LtpWire.C18_report_round_trip",
    "Hdtn.LtpWire.C18_reportAck_round_trip",
    "Hdtn.LtpWire.C18_cancel_round_trip",
    "Hdtn.LtpWire.C18_cancelAck_round_trip",
    "Hdtn.LtpWire.C18_segments_read",
    "Hdtn.LtpWire.C18_segments_read_cut",
    "Hdtn.LtpWire.C18_only_segments",
    "Hdtn.LtpWire.C18_sixteen_extensions"
   ],
   "note": "Also that the parser reports exactly the segments in the stream. Sixteen extensions are not read back (C18_sixteen_extensions)."
  },
  {
   "property": "C180",
   "status": "partial",
   "theorems": [
    "Hdtn.DtnTime.C180_exact_partial",
    "Hdtn.DtnTime.C180_round_trip_partial",
    "Hdtn.DtnTime.C180_lossy",
    "Hdtn.DtnTime.C180_order",
    "Hdtn.DtnTime.C180_before_violated"
   ],
   "note": "Proved for times from the year 2000 on; false before."
  },
  {
   "property": "C19",
   "status": "partial",
   "theorems": [
    "Hdtn.LtpWire.C19_chunks_partial",
    "Hdtn.LtpWire.C19_same_callbacks_partial",
    "Hdtn.LtpWire.C19_missing_data",
    "Hdtn.LtpWire.C19_many_claims_violated",
    "Hdtn.LtpWire.C19_trailed_data_violated",
    "Hdtn.LtpWire.C19_long_number_later"
   ],
   "note": "False as stated: reports that announce 2^31 claims or more, data of segments whose trailer comes later, and the time of the error for a number of more than ten bytes. Proved for all other streams."
  },
  {
   "property": "C20",
   "status": "partial",
   "theorems": [
    "Hdtn.LtpReceiver.C20_report_transmissions",
    "Hdtn.LtpReceiver.C20_receiver_gives_up",
    "Hdtn.LtpReceiver.C20_report_timeout",
    "Hdtn.LtpSender.C20_checkpoint_transmissions",
    "Hdtn.LtpSender.C20_checkpoint_timeout",
    "Hdtn.LtpCancel.C20_cancel_transmissions_partial",
    "Hdtn.LtpCancel.C20_cancel_course_partial",
    "Hdtn.LtpCancel.C20_cancel_endless_violated"
   ],
   "note": "Proved for reports and checkpoints. For cancel segments false with retry limits of 255 or more (C20_cancel_endless_violated), proved for smaller ones."
  },
  {
   "property": "C21",
   "status": "proved",
   "theorems": [
    "Hdtn.LtpMisc.C21_remembers_recent",
    "Hdtn.LtpMisc.C21_recent_are_last_recorded",
    "Hdtn.LtpMisc.C21_none_forgotten_early"
   ],
   "note": ""
  },
  {
   "property": "C22",
   "status": "proved",
   "theorems": [
    "Hdtn.MemoryManager.C22_allocator",
    "Hdtn.MemoryManager.C22_in_use",
    "Hdtn.MemoryManager.C22_lowest"
   ],
   "note": "For capacities below 64^6 (the code's own limit is 2^32-4)."
  },
  {
   "property": "C23",
   "status": "proved",
   "theorems": [
    "Hdtn.MemoryManager.C23_all_or_nothing"
   ],
   "note": "For capacities below 64^6."
  },
  {
   "property": "C24",
   "status": "proved",
   "theorems": [
    "Hdtn.HashMap16.C24_hash_map_is_map",
    "Hdtn.HashMap16.C24_catalog_tables"
   ],
   "note": "Generic in key, order and hash; the three tables of the catalog in the build without the CRC instruction (any hash function is covered by the first theorem)."
  },
  {
   "property": "C25",
   "status": "proved",
   "theorems": [
    "Hdtn.Catalog.C25_take_order"
   ],
   "note": "For bundles stored first-in-first-out or at the front, the only orders the storage manager uses."
  },
  {
   "property": "C26",
   "status": "proved",
   "theorems": [
    "Hdtn.Catalog.C26_conservation",
    "Hdtn.Catalog.C26_counters",
    "Hdtn.Catalog.C26_identifiers",
    "Hdtn.Catalog.C26_store",
    "Hdtn.Catalog.C26_give_back",
    "Hdtn.Catalog.C26_remove"
   ],
   "note": "For bundles with priority below 3 (see C49)."
  },
  {
   "property": "C27",
   "status": "proved",
   "theorems": [
    "Hdtn.Catalog.C27_expired",
    "Hdtn.Catalog.C27_expired_entries"
   ],
   "note": ""
  },
  {
   "property": "C28",
   "status": "partial",
   "theorems": [
    "Hdtn.Storage.C28_answers_partial",
    "Hdtn.Storage.C28_read_partial",
    "Hdtn.Storage.C28_calls_complete_partial",
    "Hdtn.Storage.C28_taken_can_be_read_partial",
    "Hdtn.Storage.C28_read_ahead_violated"
   ],
   "note": "False after ReadFirstSegment on a bundle of several segments. Proved for all histories in which it is only used on bundles of one segment."
  },
  {
   "property": "C29",
   "status": "partial",
   "theorems": [
    "Hdtn.Storage.C29_restart_partial",
    "Hdtn.Storage.C29_full_store_violated"
   ],
   "note": "False when every segment has been written once, and with duplicates. Proved otherwise."
  },
  {
   "property": "C30",
   "status": "partial",
   "theorems": [
    "Hdtn.Storage.C30_crash_partial",
    "Hdtn.Storage.C30_durable_partial",
    "Hdtn.Storage.C30_between_writes_violated"
   ],
   "note": "False for bundles of several segments. Proved for one disk and bundles that fit in one segment."
  },
  {
   "property": "C31",
   "status": "partial",
   "theorems": [
    "Hdtn.CustodyId.C31_unique_partial",
    "Hdtn.CustodyId.C31_small",
    "Hdtn.CustodyId.C31_restart_violated",
    "Hdtn.CustodyId.C31_foreign_free_violated"
   ],
   "note": "Proved for the allocator over histories of restores, allocations and frees of identifiers in use. Violated by the storage service: restored identifiers are never given to the allocator, and acknowledgement ranges are freed without checking that they were issued."
  },
  {
   "property": "C32",
   "status": "proved",
   "theorems": [
    "Hdtn.CustodyTimers.C32_poll",
    "Hdtn.CustodyTimers.C32_poll_any",
    "Hdtn.CustodyTimers.C32_start",
    "Hdtn.CustodyTimers.C32_cancel",
    "Hdtn.CustodyTimers.C32_clock_set_back"
   ],
   "note": "Under a clock that does not go back between starts; C32_clock_set_back shows the condition is needed."
  },
  {
   "property": "C33",
   "status": "proved",
   "theorems": [
    "Hdtn.CircularIndex.C33_fifo",
    "Hdtn.CircularIndex.C33_slots_disjoint",
    "Hdtn.CircularIndex.C33_synchronised",
    "Hdtn.CircularIndex.C33_status"
   ],
   "note": "Loads of the other thread's index may return out-of-date values; clients follow the get-index / access / commit discipline."
  },
  {
   "property": "C34",
   "status": "proved",
   "theorems": [
    "Hdtn.Cbhe.C34_bpv7_decode_iff",
    "Hdtn.Cbhe.C34_bpv7_length",
    "Hdtn.Cbhe.C34_bpv7_round_trip",
    "Hdtn.Cbhe.C34_bpv7_node_zero",
    "Hdtn.Cbhe.C34_bpv7_bounded",
    "Hdtn.Cbhe.C34_bpv6_decode_iff",
    "Hdtn.Cbhe.C34_bpv6_length",
    "Hdtn.Cbhe.C34_bpv6_round_trip",
    "Hdtn.Cbhe.C34_bpv6_bounded"
   ],
   "note": "In BPv7 an endpoint with node number 0 is written as dtn:none and loses its service number (C34_bpv7_node_zero)."
  },
  {
   "property": "C35",
   "status": "proved",
   "theorems": [
    "Hdtn.Bpv7Primary.C35_decode_iff",
    "Hdtn.Bpv7Primary.C35_round_trip",
    "Hdtn.Bpv7Primary.C35_stale_fragment_members"
   ],
   "note": "The fragment members of the decoded object keep their previous values when the block is no fragment (C35_stale_fragment_members)."
  },
  {
   "property": "C36",
   "status": "partial",
   "theorems": [
    "Hdtn.Bpv7Primary.C36_primary_crc",
    "Hdtn.Bpv7Primary.C36_primary_single_byte_partial",
    "Hdtn.Bpv7Primary.C36_primary_moved_end",
    "Hdtn.Bpv7Canonical.C36_canonical_crc",
    "Hdtn.Bpv7Canonical.C36_canonical_single_byte_partial",
    "Hdtn.Bpv7Canonical.C36_canonical_moved_end",
    "Hdtn.Bpv7Crc.crc16_burst",
    "Hdtn.Bpv7Crc.crc32_burst"
   ],
   "note": "The first half is proved in full. The second is false when the corrupted byte moves the end of the block (witnesses proved) and proved otherwise."
  },
  {
   "property": "C37",
   "status": "proved",
   "theorems": [
    "Hdtn.Bpv7Canonical.C37_decode_iff",
    "Hdtn.Bpv7Canonical.C37_decode_unchecked_iff",
    "Hdtn.Bpv7Canonical.C37_round_trip",
    "Hdtn.Bpv7Canonical.C37_tag24_refused"
   ],
   "note": "A block whose data carries the CBOR tag 24 is refused, because only one of the two bytes of the tag is skipped (C37_tag24_refused)."
  },
  {
   "property": "C38",
   "status": "proved",
   "theorems": [
    "Hdtn.Bpv6Primary.C38_decode_iff",
    "Hdtn.Bpv6Primary.C38_round_trip",
    "Hdtn.Bpv6Primary.C38_whole_bundle_never_refused"
   ],
   "note": ""
  },
  {
   "property": "C39",
   "status": "partial",
   "theorems": [
    "Hdtn.Bpv6Fragment.C39_payload_restored",
    "Hdtn.Bpv6Fragment.C39_fragments_tile_partial",
    "Hdtn.Bpv6Fragment.C39_not_fragmented",
    "Hdtn.Bpv6Fragment.C39_fragments_on_the_wire_partial",
    "Hdtn.Bpv6Fragment.C39_bundle_restored_partial",
    "Hdtn.Bpv6Fragment.C39_manager_restores_partial",
    "Hdtn.Bpv6Fragment.C39_any_depth_partial",
    "Hdtn.Bpv6Fragment.C39_again_partial",
    "Hdtn.Bpv6Fragment.C39_deep_payload_restored_partial",
    "Hdtn.Bpv6Fragment.C39_fragment_overflows_buffer",
    "Hdtn.Bpv6Fragment.C39_admin_fragment_refused",
    "Hdtn.Bpv6Fragment.C39_overlap_violated"
   ],
   "note": "Missing: originals that have blocks with long flags. False for blocks behind the payload when fragments of different sizes are mixed (C39_overlap_violated), for bundles with administrative records (C39_admin_fragment_refused), and a fragment can be written past its buffer (C39_fragment_overflows_buffer)."
  },
  {
   "property": "C40",
   "status": "partial",
   "theorems": [
    "Hdtn.Bpv6Fragment.C40_accepted_iff_partial",
    "Hdtn.Bpv6Fragment.C40_manager_partial",
    "Hdtn.Bpv6Fragment.C40_mixed_refused",
    "Hdtn.Bpv6Fragment.C40_incomplete_accepted",
    "Hdtn.Bpv6Fragment.C40_empty_fragment_completes",
    "Hdtn.Bpv6Fragment.C40_offset_wraps"
   ],
   "note": "False as stated (C40_incomplete_accepted, C40_empty_fragment_completes, C40_offset_wraps). Proved: what the assembler accepts, and that the manager assembles sound fragments exactly when complete."
  },
  {
   "property": "C41",
   "status": "proved",
   "theorems": [
    "Hdtn.AdminRecord6.C41_accepted_iff",
    "Hdtn.AdminRecord6.C41_decode",
    "Hdtn.AdminRecord6.C41_round_trip"
   ],
   "note": "For non-empty sets of identifiers below 2^64-1; an empty set is written but refused by the reader."
  },
  {
   "property": "C42",
   "status": "partial",
   "theorems": [
    "Hdtn.CustodyManager.C42_partial",
    "Hdtn.CustodyManager.C42_violated"
   ],
   "note": "False: in any state, two bundles generated in one second share their identity. Proved that the identity is the second."
  },
  {
   "property": "C43",
   "status": "partial",
   "theorems": [
    "Hdtn.TcpclV3.C43_chunks_partial",
    "Hdtn.TcpclV3.C43_small_chunks_partial",
    "Hdtn.TcpclV3.C43_limit_partial",
    "Hdtn.TcpclV3.C43_limit_violated",
    "Hdtn.TcpclV3.C43_resync_violated",
    "Hdtn.TcpclV3.C43_throws_violated",
    "Hdtn.TcpclV3.C43_contact_throws"
   ],
   "note": "False for malformed lengths and lengths over the limit in chunks of more than 16 bytes. Proved for all other streams, and for all streams in chunks of at most 16 bytes."
  },
  {
   "property": "C44",
   "status": "proved",
   "theorems": [
    "Hdtn.TcpclV3.C44_round_trip",
    "Hdtn.TcpclV3.C44_conforming",
    "Hdtn.TcpclV3.C44_format",
    "Hdtn.TcpclV3.C44_sound",
    "Hdtn.TcpclV3.C44_empty_violated"
   ],
   "note": "Also that nothing is reported that was not sent. Empty contents wedge the receiver (C44_empty_violated)."
  },
  {
   "property": "C45",
   "status": "proved",
   "theorems": [
    "Hdtn.TcpclV4.C45_chunks",
    "Hdtn.TcpclV4.C45_any_two"
   ],
   "note": "From every state of the receiver."
  },
  {
   "property": "C46",
   "status": "partial",
   "theorems": [
    "Hdtn.TcpclV4.C46_round_trip_partial",
    "Hdtn.TcpclV4.C46_conforming",
    "Hdtn.TcpclV4.C46_format",
    "Hdtn.TcpclV4.C46_generators",
    "Hdtn.TcpclV4.C46_refused",
    "Hdtn.TcpclV4.C46_limit",
    "Hdtn.TcpclV4.C46_sound_partial",
    "Hdtn.TcpclV4.C46_empty_node_violated",
    "Hdtn.TcpclV4.C46_stale_violated",
    "Hdtn.TcpclV4.C46_init_rx_violated"
   ],
   "note": "False for an empty node and for extensions left over from a refused segment. Proved otherwise, also that nothing is reported that was not sent."
  },
  {
   "property": "C47",
   "status": "proved",
   "theorems": [
    "Hdtn.TokenBucket.C47_granted_iff",
    "Hdtn.TokenBucket.C47_rate_bound",
    "Hdtn.TokenBucket.C47_no_overflow"
   ],
   "note": "For rates and histories that do not overflow 64-bit arithmetic; C47_no_overflow gives a sufficient condition."
  },
  {
   "property": "C48",
   "status": "partial",
   "theorems": [
    "Hdtn.Expiration.C48_expiration_v6_partial",
    "Hdtn.Expiration.C48_expiration_v7_partial",
    "Hdtn.Expiration.C48_violated"
   ],
   "note": "False of the code for large lifetimes: witnesses proved. Holds while the sum is below 2^60 s (BPv6) or 2^64 ms (BPv7)."
  },
  {
   "property": "C49",
   "status": "partial",
   "theorems": [
    "Hdtn.Expiration.C49_priority_partial",
    "Hdtn.Expiration.C49_violated"
   ],
   "note": "False of the code for BPv6 flags with both priority bits set; exact condition proved."
  },
  {
   "property": "C50",
   "status": "proved",
   "theorems": [
    "Hdtn.ForwardListQueue.C50_queue_is_list",
    "Hdtn.ForwardListQueue.C50_remove_reports"
   ],
   "note": ""
  },
  {
   "property": "C51",
   "status": "proved",
   "theorems": [
    "Hdtn.Bpv7Crc.C51_crc32_agree"
   ],
   "note": ""
  },
  {
   "property": "C52",
   "status": "proved",
   "theorems": [
    "Hdtn.Bpv7Canonical.C52_read_iff",
    "Hdtn.Bpv7Canonical.C52_round_trip",
    "Hdtn.Bpv7Canonical.C52_hop_in_place"
   ],
   "note": ""
  },
  {
   "property": "C53",
   "status": "proved",
   "theorems": [
    "Hdtn.Uri.C53_parse_iff",
    "Hdtn.Uri.C53_round_trip",
    "Hdtn.Uri.C53_wildcard",
    "Hdtn.Uri.C53_uint_length",
    "Hdtn.Uri.C53_cstring",
    "Hdtn.Uri.C53_cstring_iff",
    "Hdtn.Uri.C53_signs_accepted"
   ],
   "note": "The parser also accepts signed numerals, as the library routine it uses does (C53_signs_accepted)."
  },
  {
   "property": "C54",
   "status": "proved",
   "theorems": [
    "Hdtn.Bpv6Canonical.C54_decode_iff",
    "Hdtn.Bpv6Canonical.C54_round_trip",
    "Hdtn.Bpv6Canonical.C54_ext_read_iff",
    "Hdtn.Bpv6Canonical.C54_ext_round_trip",
    "Hdtn.Bpv6Canonical.C54_previous_hop_largest_refused"
   ],
   "note": "A previous hop block with two numbers of twenty digits is written but refused by the reader (C54_previous_hop_largest_refused)."
  },
  {
   "property": "C55",
   "status": "proved",
   "theorems": [
    "Hdtn.AdminRecord6.C55_status_read_iff",
    "Hdtn.AdminRecord6.C55_custody_read_iff",
    "Hdtn.AdminRecord6.C55_status_round_trip",
    "Hdtn.AdminRecord6.C55_custody_round_trip",
    "Hdtn.AdminRecord6.C55_custody_status"
   ],
   "note": "For endpoint texts of 5 to 65535 bytes; others are written but refused by the reader."
  },
  {
   "property": "C56",
   "status": "proved",
   "theorems": [
    "Hdtn.BundleView6.C56_load_iff",
    "Hdtn.BundleView6.C56_render_reload",
    "Hdtn.BundleView6.C56_render_unchanged",
    "Hdtn.BundleView6.C56_long_flags_corrupted"
   ],
   "note": "For blocks with their flags in one byte; a block that spells small flags in several bytes is damaged by rendering (C56_long_flags_corrupted)."
  },
  {
   "property": "C57",
   "status": "proved",
   "theorems": [
    "Hdtn.LtpReceiver.C57_reports_honest",
    "Hdtn.LtpReceiver.C57_reports_exact"
   ],
   "note": ""
  },
  {
   "property": "C58",
   "status": "partial",
   "theorems": [
    "Hdtn.LtpReceiver.C58_checkpoint_answered_partial",
    "Hdtn.LtpReceiver.C58_violated"
   ],
   "note": "False: with deferral a checkpoint can be dropped (C58_violated). Proved with the exceptions named in the theorem."
  },
  {
   "property": "C59",
   "status": "partial",
   "theorems": [
    "Hdtn.LtpReceiver.C59_closed_partial",
    "Hdtn.LtpReceiver.C59_green_first_violated",
    "Hdtn.LtpReceiver.C59_unacknowledged_violated"
   ],
   "note": "False for blocks with a green part. Proved for blocks that are all red."
  },
  {
   "property": "C60",
   "status": "proved",
   "theorems": [
    "Hdtn.LtpSender.C60_resend_exact",
    "Hdtn.LtpSender.C60_resend_delayed",
    "Hdtn.LtpSender.C60_scope_violated",
    "Hdtn.LtpSender.C60_endless_violated"
   ],
   "note": "For reports with a scope inside the red part; others read outside the block or never end (the two violated theorems)."
  },
  {
   "property": "C61",
   "status": "proved",
   "theorems": [
    "Hdtn.LtpLink.C61_no_failure",
    "Hdtn.LtpLink.C61_only_the_red_part",
    "Hdtn.LtpLink.C61_success_means_delivered"
   ],
   "note": "Fewer than 2^64 events at the sender. The engine's table of sessions is not part of this model."
  },
  {
   "property": "C62",
   "status": "partial",
   "theorems": [
    "Hdtn.LtpLink.C62_plain_completion_partial",
    "Hdtn.LtpLink.C62_checkpoints_violated",
    "Hdtn.LtpLink.C62_split_reports_violated"
   ],
   "note": "False when a checkpoint completes the red part (two witnesses). Proved when a plain segment does."
  },
  {
   "property": "C63",
   "status": "partial",
   "theorems": [
    "Hdtn.LtpCancel.C63_pings_partial",
    "Hdtn.LtpCancel.C63_ack_reports_up",
    "Hdtn.LtpCancel.C63_never_down_violated",
    "Hdtn.LtpCancel.C63_lookalike_violated"
   ],
   "note": "False with retry limits of 255 or more and for sessions that look like pings. Proved otherwise."
  },
  {
   "property": "C64",
   "status": "partial",
   "theorems": [
    "Hdtn.LtpTimers.C64_exactly_once",
    "Hdtn.LtpTimers.C64_not_early_partial",
    "Hdtn.LtpTimers.C64_not_before_expiry_partial",
    "Hdtn.LtpTimers.C64_not_late_partial",
    "Hdtn.LtpTimers.C64_all_fire_partial",
    "Hdtn.LtpTimers.C64_zero_violated",
    "Hdtn.LtpTimers.C64_shorter_violated",
    "Hdtn.LtpTimers.C64_race_violated"
   ],
   "note": "False for the id 0, for a duration shortened without adjusting and for an adjustment while the handler is due. Proved otherwise."
  },
  {
   "property": "C65",
   "status": "partial",
   "theorems": [
    "Hdtn.Storage.C65_segments_apart",
    "Hdtn.Storage.C65_no_leak_partial",
    "Hdtn.Storage.C65_refused",
    "Hdtn.Storage.C65_duplicate_violated"
   ],
   "note": "False when a custody bundle is stored twice. Proved otherwise."
  },
  {
   "property": "C66",
   "status": "proved",
   "theorems": [
    "Hdtn.CustodyManager.C66_rejects_iff",
    "Hdtn.CustodyManager.C66_signals",
    "Hdtn.CustodyManager.C66_defers",
    "Hdtn.CustodyManager.C66_accepted",
    "Hdtn.CustodyManager.C66_refused",
    "Hdtn.CustodyManager.C66_next_hop"
   ],
   "note": ""
  },
  {
   "property": "C67",
   "status": "partial",
   "theorems": [
    "Hdtn.CustodyManager.C67_flush",
    "Hdtn.CustodyManager.C67_conserved_partial",
    "Hdtn.CustodyManager.C67_threshold",
    "Hdtn.CustodyManager.C67_violated"
   ],
   "note": "False for pending sets of 1088 ranges or more. Proved while no set has more than 101 ranges, and that the default threshold ensures this."
  },
  {
   "property": "C68",
   "status": "partial",
   "theorems": [
    "Hdtn.CustodyManager.C68_only_on_success",
    "Hdtn.CustodyManager.C68_aggregate",
    "Hdtn.CustodyManager.C68_signal",
    "Hdtn.CustodyManager.C68_end_to_end",
    "Hdtn.CustodyManager.C68_endless_violated"
   ],
   "note": "A signal with a range up to the largest identifier never ends. Proved for the signals this code generates."
  },
  {
   "property": "C69",
   "status": "proved",
   "theorems": [
    "Hdtn.TcpclV4Link.C69_order",
    "Hdtn.TcpclV4Link.C69_complete",
    "Hdtn.TcpclV4Link.C69_progress",
    "Hdtn.TcpclV4Link.C69_empty_violated"
   ],
   "note": "For suitable settings without TLS. Empty bundles, which the statement leaves out, wedge the session (C69_empty_violated)."
  },
  {
   "property": "C70",
   "status": "partial",
   "theorems": [
    "Hdtn.TcpclV4Link.C70_order",
    "Hdtn.TcpclV4Link.C70_complete_partial",
    "Hdtn.TcpclV4Link.C70_any_peer",
    "Hdtn.TcpclV4Link.C70_refused_violated",
    "Hdtn.TcpclV4Link.C70_init_violated"
   ],
   "note": "Completeness is false when the peer refuses a transfer or initialises the session again. Proved between two entities of this code with careful applications; soundness for any peer."
  },
  {
   "property": "C71",
   "status": "partial",
   "theorems": [
    "Hdtn.TcpclV4Link.C71_accepts_partial",
    "Hdtn.TcpclV4Link.C71_overflow_violated",
    "Hdtn.TcpclV4Link.C71_mru_violated"
   ],
   "note": "Acceptance proved. False that oversized bundles are refused and that refused bundles leave no trace."
  },
  {
   "property": "C72",
   "status": "partial",
   "theorems": [
    "Hdtn.TcpclV4Link.C72_receive_partial",
    "Hdtn.TcpclV4Link.C72_mixed_violated",
    "Hdtn.TcpclV4Link.C72_stray_violated",
    "Hdtn.TcpclV4Link.C72_mru_violated"
   ],
   "note": "False for mixed transfers, missing first segments and the size limit. Proved for transfers one after the other."
  },
  {
   "property": "C73",
   "status": "partial",
   "theorems": [
    "Hdtn.TcpclV4Link.C73_safe_partial",
    "Hdtn.TcpclV4Link.C73_init_partial",
    "Hdtn.TcpclV4Link.C73_zero_violated",
    "Hdtn.TcpclV4Link.C73_ack_violated",
    "Hdtn.TcpclV4Link.C73_memory_violated",
    "Hdtn.TcpclV4Link.C73_tls_violated",
    "Hdtn.TcpclV4Link.C73_early_violated",
    "Hdtn.TcpclV4Link.C73_expected_violated",
    "Hdtn.TcpclV4Link.C73_critical_violated"
   ],
   "note": "False for hostile messages and TLS. Proved: the decision table for sensible sizes, and no crash between suitable entities."
  },
  {
   "property": "C74",
   "status": "partial",
   "theorems": [
    "Hdtn.AdminRecord7.C74_report_iff",
    "Hdtn.AdminRecord7.C74_pdu_iff",
    "Hdtn.AdminRecord7.C74_record_iff",
    "Hdtn.AdminRecord7.C74_conforming_partial",
    "Hdtn.AdminRecord7.C74_round_trip_partial",
    "Hdtn.AdminRecord7.C74_equal_partial",
    "Hdtn.AdminRecord7.C74_pdu_equal",
    "Hdtn.AdminRecord7.C74_unasserted_violated",
    "Hdtn.AdminRecord7.C74_indefinite_violated",
    "Hdtn.AdminRecord7.C74_short_status_violated",
    "Hdtn.AdminRecord7.C74_tag_violated",
    "Hdtn.AdminRecord7.C74_unsupported_violated",
    "Hdtn.AdminRecord7.C74_times_violated"
   ],
   "note": "False for reports with no status asserted, status arrays of indefinite length, short statuses, tagged bundles, unsupported codes and times in comparisons. Proved otherwise, with an exact description of what is read."
  },
  {
   "property": "C75",
   "status": "partial",
   "theorems": [
    "Hdtn.BpSec7.C75_read_iff",
    "Hdtn.BpSec7.C75_read_fresh_iff",
    "Hdtn.BpSec7.C75_conforming_partial",
    "Hdtn.BpSec7.C75_no_fault_partial",
    "Hdtn.BpSec7.C75_round_trip_partial",
    "Hdtn.BpSec7.C75_equal",
    "Hdtn.BpSec7.C75_overread_violated",
    "Hdtn.BpSec7.C75_one_past_violated",
    "Hdtn.BpSec7.C75_stale_violated",
    "Hdtn.BpSec7.C75_two_results_violated",
    "Hdtn.BpSec7.C75_results_violated",
    "Hdtn.BpSec7.C75_context_violated",
    "Hdtn.BpSec7.C75_flag_violated"
   ],
   "note": "False for memory safety, recycled block objects, several results of a target and reserved flags. Proved: an exact description of what is read, the round trip within the reader's limits, and safety when the source lies inside the block."
  },
  {
   "property": "C76",
   "status": "proved",
   "theorems": [
    "Hdtn.BpSec7.C76_set_uint",
    "Hdtn.BpSec7.C76_set_bytes",
    "Hdtn.BpSec7.C76_get",
    "Hdtn.BpSec7.C76_scope",
    "Hdtn.BpSec7.C76_results",
    "Hdtn.BpSec7.C76_flag"
   ],
   "note": ""
  },
  {
   "property": "C77",
   "status": "partial",
   "theorems": [
    "Hdtn.BundleView7.C77_load_iff",
    "Hdtn.BundleView7.C77_recycled",
    "Hdtn.BundleView7.C77_no_fault_partial",
    "Hdtn.BundleView7.C77_fault_violated",
    "Hdtn.BundleView7.C77_stale_violated",
    "Hdtn.BundleView7.C77_numbers_violated",
    "Hdtn.BundleView7.C77_render_unchanged",
    "Hdtn.BundleView7.C77_render_reload",
    "Hdtn.BundleView7.C77_overflow_violated",
    "Hdtn.BundleView7.C77_empty_violated",
    "Hdtn.BundleView7.C77_two_payloads_violated",
    "Hdtn.BundleView7.C77_size_violated",
    "Hdtn.BundleView7.C77_in_place",
    "Hdtn.BundleView7.C77_in_place_dangling_violated",
    "Hdtn.BundleView7.C77_in_place_overflow_violated"
   ],
   "note": "False for memory safety with security blocks or small buffers, recycled security blocks and some views. Proved: an exact description of loading, rendering and rendering in place of every view whose blocks may be written."
  },
  {
   "property": "C78",
   "status": "partial",
   "theorems": [
    "Hdtn.BundleView7.C78_next_loaded",
    "Hdtn.BundleView7.C78_numbers_partial",
    "Hdtn.BundleView7.C78_shared_violated",
    "Hdtn.BundleView7.C78_payload_violated",
    "Hdtn.BundleView7.C78_wrap_violated"
   ],
   "note": "False when blocks share a number, when the payload block is deleted, and at the largest number. Proved for all other histories."
  },
  {
   "property": "C79",
   "status": "proved",
   "theorems": [
    "Hdtn.Cgr.C79_earliest",
    "Hdtn.Cgr.C79_next_hop",
    "Hdtn.Cgr.C79_self",
    "Hdtn.Cgr.C79_volume_violated",
    "Hdtn.Cgr.C79_negative_violated",
    "Hdtn.Cgr.C79_overflow_violated"
   ],
   "note": "For light times that are not negative and times in range; the theorems ending in _violated show what happens otherwise."
  },
  {
   "property": "C80",
   "status": "partial",
   "theorems": [
    "Hdtn.CgrMulti.C80_earliest_partial",
    "Hdtn.CgrMulti.C80_search",
    "Hdtn.CgrMulti.C80_adjacency",
    "Hdtn.CgrMulti.C80_smaller_never",
    "Hdtn.CgrMulti.C80_smaller_violated",
    "Hdtn.CgrMulti.C80_dead_end_violated",
    "Hdtn.CgrMulti.C80_past_violated",
    "Hdtn.CgrMulti.C80_tie_violated",
    "Hdtn.CgrMulti.C80_overlap_violated",
    "Hdtn.CgrMulti.C80_usable_violated",
    "Hdtn.CgrMulti.C80_no_contact_violated"
   ],
   "note": "False for destinations with smaller numbers, dead ends, the present time, ties, overlapping, suppressed or used up contacts and sources without contacts. Proved otherwise."
  },
  {
   "property": "C81",
   "status": "partial",
   "theorems": [
    "Hdtn.Cgr.C81_figures_partial",
    "Hdtn.Cgr.C81_delivery_violated"
   ],
   "note": "False for the delivery time, which is that of a bundle that sets out at time 0. Proved for the rest."
  },
  {
   "property": "C82",
   "status": "proved",
   "theorems": [
    "Hdtn.Slip.C82_encode",
    "Hdtn.Slip.C82_delivery",
    "Hdtn.Slip.C82_from_start",
    "Hdtn.Slip.C82_limits",
    "Hdtn.Slip.C82_one_slot_violated"
   ],
   "note": ""
  },
  {
   "property": "C83",
   "status": "partial",
   "theorems": [
    "Hdtn.Slip.C83_accounted",
    "Hdtn.Slip.C83_takes",
    "Hdtn.Slip.C83_end_to_end",
    "Hdtn.Slip.C83_empty_violated",
    "Hdtn.Slip.C83_unacked_violated",
    "Hdtn.Slip.C83_large_violated"
   ],
   "note": "False for empty bundles that fail, for the count after a failure and for bundles of 4 GiB or more. Proved otherwise."
  },
  {
   "property": "C84",
   "status": "proved",
   "theorems": [
    "Hdtn.Stcp.C84_delivery",
    "Hdtn.Stcp.C84_limits",
    "Hdtn.Stcp.C84_end_to_end",
    "Hdtn.Stcp.C84_one_slot_violated"
   ],
   "note": ""
  },
  {
   "property": "C85",
   "status": "partial",
   "theorems": [
    "Hdtn.Stcp.C85_accounted_partial",
    "Hdtn.Stcp.C85_smooth_partial",
    "Hdtn.Stcp.C85_takes",
    "Hdtn.Stcp.C85_stale_violated",
    "Hdtn.Stcp.C85_wedged_violated",
    "Hdtn.Stcp.C85_large_violated",
    "Hdtn.Stcp.C85_empty_violated"
   ],
   "note": "False after a failed write, for empty bundles and for bundles near 4 GiB or larger. Proved: no report twice or out of order in any history, and the full statement without failing writes."
  },
  {
   "property": "C86",
   "status": "partial",
   "theorems": [
    "Hdtn.Udp.C86_accounted_partial",
    "Hdtn.Udp.C86_takes",
    "Hdtn.Udp.C86_mixed_violated",
    "Hdtn.Udp.C86_failed_violated"
   ],
   "note": "False for bundles in both forms under a rate limit and for failed sends. Proved for one form."
  },
  {
   "property": "C87",
   "status": "partial",
   "theorems": [
    "Hdtn.Udp.C87_rate_partial",
    "Hdtn.Udp.C87_refresh",
    "Hdtn.Udp.C87_burst_violated",
    "Hdtn.Udp.C87_pause_violated"
   ],
   "note": "False with one bucket, after a pause. Proved with two buckets, and that nothing is stuck."
  },
  {
   "property": "C88",
   "status": "partial",
   "theorems": [
    "Hdtn.Udp.C88_delivered_partial",
    "Hdtn.Udp.C88_lost",
    "Hdtn.Udp.C88_cut_violated"
   ],
   "note": "False for datagrams over the limit. Proved otherwise."
  },
  {
   "property": "C89",
   "status": "proved",
   "theorems": [
    "Hdtn.Iv.C89_unique",
    "Hdtn.Iv.C89_length",
    "Hdtn.Iv.C89_bound",
    "Hdtn.Iv.C89_restart_violated"
   ],
   "note": "Within one process, as stated."
  },
  {
   "property": "C90",
   "status": "partial",
   "theorems": [
    "Hdtn.BpSecPolicy.C90_create",
    "Hdtn.BpSecPolicy.C90_find",
    "Hdtn.BpSecPolicy.C90_applies",
    "Hdtn.BpSecPolicy.C90_exact_partial",
    "Hdtn.BpSecPolicy.C90_uniform_partial",
    "Hdtn.BpSecPolicy.C90_cache",
    "Hdtn.BpSecPolicy.C90_cache_hit",
    "Hdtn.BpSecPolicy.C90_cache_init",
    "Hdtn.BpSecPolicy.C90_masked_violated",
    "Hdtn.BpSecPolicy.C90_role_violated",
    "Hdtn.BpSecPolicy.C90_refused_violated",
    "Hdtn.BpSecPolicy.C90_cache_violated"
   ],
   "note": "False that every matching policy can be found, and for the cache if policies are created in between. Proved: creating, the exact place a search arrives at, what is found matches, and completeness for exact rules and for uniform sources."
  },
  {
   "property": "C91",
   "status": "partial",
   "theorems": [
    "Hdtn.BpSecPolicy.C91_accepts",
    "Hdtn.BpSecPolicy.C91_contents",
    "Hdtn.BpSecPolicy.C91_validate",
    "Hdtn.BpSecPolicy.C91_overlap_violated"
   ],
   "note": "False for the rule on encrypted integrity blocks, which is never enforced. All else is proved."
  },
  {
   "property": "C92",
   "status": "partial",
   "theorems": [
    "Hdtn.BpSecBundle.C92_encrypt_partial",
    "Hdtn.BpSecBundle.C92_round_trip",
    "Hdtn.BpSecBundle.C92_same_iv_violated"
   ],
   "note": "False for the room before the bundle and for the use of one initialization vector for all targets. Proved for all else; the tag is that of RFC 9173 if the header of the target has its shortest encoding."
  },
  {
   "property": "C93",
   "status": "partial",
   "theorems": [
    "Hdtn.BpSecBundle.C93_sign_partial",
    "Hdtn.BpSecBundle.C93_round_trip"
   ],
   "note": "False for the room before the bundle. Proved for all else; the plaintext is that of RFC 9173 if header and length of the data of the target have their shortest encodings."
  },
  {
   "property": "C94",
   "status": "partial",
   "theorems": [
    "Hdtn.BpSecBundle.C94_decrypted",
    "Hdtn.BpSecBundle.C94_verified",
    "Hdtn.BpSecBundle.C94_decrypted_parameters",
    "Hdtn.BpSecBundle.C94_verified_parameters",
    "Hdtn.BpSecBundle.C94_short_tag_violated",
    "Hdtn.BpSecBundle.C94_wrapped_key_violated"
   ],
   "note": "Authenticity is proved. False that memory is safe: short tags and long wrapped keys."
  },
  {
   "property": "C95",
   "status": "partial",
   "theorems": [
    "Hdtn.BpSecProcess.C95_acceptor_partial",
    "Hdtn.BpSecProcess.C95_payload_partial",
    "Hdtn.BpSecProcess.C95_untouched",
    "Hdtn.BpSecProcess.C95_plain",
    "Hdtn.BpSecProcess.C95_forwarder",
    "Hdtn.BpSecProcess.C95_required_violated",
    "Hdtn.BpSecProcess.C95_integrity_only_violated",
    "Hdtn.BpSecProcess.C95_half_decrypted_violated"
   ],
   "note": "False for stripped bundles, for policies without confidentiality at the destination and for blocks decrypted in part. Proved: all that is said of the targets and of the other blocks."
  },
  {
   "property": "C96",
   "status": "partial",
   "theorems": [
    "Hdtn.BpSecProcess.C96_actions",
    "Hdtn.BpSecProcess.C96_integrity_partial",
    "Hdtn.BpSecProcess.C96_strict_partial",
    "Hdtn.BpSecProcess.C96_primary_violated",
    "Hdtn.BpSecProcess.C96_stale_violated"
   ],
   "note": "The actions are proved. False for the primary block as a target to be removed and for encrypted integrity blocks at a verifier. HMACs are proved for integrity blocks that are not encrypted, in terms of RFC 9173 if headers have their shortest encodings."
  },
  {
   "property": "C97",
   "status": "partial",
   "theorems": [
    "Hdtn.BpSecProcess.C97_no_policy",
    "Hdtn.BpSecProcess.C97_sent_partial",
    "Hdtn.BpSecProcess.C97_end_to_end_partial",
    "Hdtn.BpSecProcess.C97_nothing_to_protect",
    "Hdtn.BpSecProcess.C97_absent_type_violated",
    "Hdtn.BpSecProcess.C97_primary_violated",
    "Hdtn.BpSecProcess.C97_kek_violated"
   ],
   "note": "False for types that do not occur in the bundle, for the primary block as target and for key encryption keys at a source. Proved for all else, if sending succeeds."
  },
  {
   "property": "C98",
   "status": "partial",
   "theorems": [
    "Hdtn.Ingress7.C98_forwarded",
    "Hdtn.Ingress7.C98_dropped_partial",
    "Hdtn.Ingress7.C98_checked",
    "Hdtn.Ingress7.C98_hops",
    "Hdtn.Ingress7.C98_accepted",
    "Hdtn.Ingress7.C98_wrap_violated",
    "Hdtn.Ingress7.C98_encrypted_violated",
    "Hdtn.Ingress7.C98_number_violated",
    "Hdtn.Ingress7.C98_removed_violated",
    "Hdtn.Ingress7.C98_signed_violated",
    "Hdtn.Ingress7.C98_new_violated"
   ],
   "note": "False for hop counts of 2^64 - 1, encrypted hop counts, numbers taken by absent targets, previous node blocks that fail an integrity check, and policies as source on the two blocks. Proved otherwise."
  },
  {
   "property": "C99",
   "status": "partial",
   "theorems": [
    "Hdtn.Ingress7.C99_echo",
    "Hdtn.Ingress7.C99_ping",
    "Hdtn.Ingress7.C99_custody",
    "Hdtn.Ingress7.C99_signed_violated"
   ],
   "note": "False for nodes that sign what they echo. Proved otherwise."
  }
 ]
}